import Verif.Pipeline.Spec

/-!
The search as a relation on sequences whose elements are marked (asked for or inserted).
-/
set_option linter.unusedSimpArgs false
set_option linter.unusedVariables false
namespace Verif.Pipeline
open Spec
variable {P : Type} {env : Env P}

theorem isSubset_iff {s t : List Str} : isSubset s t = true ↔ ∀ x ∈ s, x ∈ t := by
  simp [isSubset]

theorem provides_iff {q : P} {T : List Str} : isSubset T (env.provided q) = true ↔ Provides env q T := isSubset_iff

theorem checkRequired_iff {T : List Str} {d : List P} : checkRequired env T d = true ↔ ∃ q ∈ d, Provides env q T := by
  simp [checkRequired, provides_iff]

theorem multiLoop_iff (sane : Sane env) (alt : List P) : ∀ o : Option Str, multiLoop env o alt = true ↔
    (∃ p ∈ alt, env.handling p = .dependent) ∨
    (∃ l ∈ o, ∃ p ∈ alt, env.handling p = .one ∧ env.languages p ≠ [l]) ∨
    ∃ p ∈ alt, ∃ q ∈ alt, env.handling p = .one ∧ env.handling q = .one ∧ env.languages p ≠ env.languages q := by
  induction alt with
  | nil => intro o; simp [multiLoop]
  | cons p ps ih =>
    intro o
    cases hp : env.handling p with
    | dependent => simp [multiLoop, hp]
    | independent => simp [multiLoop, hp, ih]
    | guesser => simp [multiLoop, hp, ih]
    | one =>
      obtain ⟨k, hk⟩ := sane.one p hp
      cases o with
      | none =>
        simp only [multiLoop, hp, hk, List.head?_cons, ih]
        simp [hp, hk]
        constructor
        · rintro (h | ⟨q, h1, h2, h3⟩ | h)
          · exact Or.inl h
          · exact Or.inr (Or.inl ⟨q, h1, h2, fun e => h3 e.symm⟩)
          · exact Or.inr (Or.inr (by
              obtain ⟨a, h1, b, h2, h3⟩ := h
              exact ⟨a, h1, Or.inr ⟨b, h2, h3⟩⟩))
        · rintro (h | h | ⟨q, h1, h⟩)
          · exact Or.inl h
          · obtain ⟨q, h1, h2, h3⟩ := h
            exact Or.inr (Or.inl ⟨q, h1, h2, fun e => h3 e.symm⟩)
          · rcases h with ⟨h2, h3⟩ | ⟨b, h2, h3⟩
            · exact Or.inr (Or.inl ⟨q, h1, h2, h3⟩)
            · exact Or.inr (Or.inr ⟨q, h1, b, h2, h3⟩)
      | some l =>
        simp only [multiLoop, hp, hk, List.head?_cons]
        by_cases h : k = l
        · subst h
          simp only [ne_eq, not_true_eq_false, if_false, ih]
          simp [hp, hk]
          constructor
          · rintro (h | ⟨q, h1, h2, h3⟩ | h)
            · exact Or.inl h
            · exact Or.inr (Or.inl ⟨q, h1, h2, h3⟩)
            · exact Or.inr (Or.inr (Or.inr (by
                obtain ⟨a, h1, b, h2, h3⟩ := h
                exact ⟨a, h1, Or.inr ⟨b, h2, h3⟩⟩)))
          · rintro (h | ⟨q, h1, h2, h3⟩ | ⟨q, h1, h2, h3⟩ | ⟨q, h1, h⟩)
            · exact Or.inl h
            · exact Or.inr (Or.inl ⟨q, h1, h2, h3⟩)
            · exact Or.inr (Or.inl ⟨q, h1, h2, fun e => h3 e.symm⟩)
            · rcases h with ⟨h2, h3⟩ | ⟨b, h2, h3⟩
              · exact Or.inr (Or.inl ⟨q, h1, h2, h3⟩)
              · exact Or.inr (Or.inr ⟨q, h1, b, h2, h3⟩)
        · simp [h, hp, hk]

theorem isMultilingual_iff (sane : Sane env) {alt : List P} : isMultilingual env alt = true ↔ Multilingual env alt := by
  rw [isMultilingual, multiLoop_iff sane]
  simp [Multilingual]

theorem multi_single {p : P} : isMultilingual env [p] = true ↔ env.handling p = .dependent := by
  cases hp : env.handling p <;> simp [isMultilingual, multiLoop, hp]

theorem multi_mem {alt : List P} {p : P} (hp : p ∈ alt) (h : isMultilingual env alt = false) : env.handling p ≠ .dependent := by
  intro hd
  have : ∀ o, multiLoop env o alt = true := by
    induction alt with
    | nil => simp at hp
    | cons q qs ih =>
      intro o
      rcases List.mem_cons.1 hp with rfl | hp
      · simp [multiLoop, hd]
      · have hq : ∀ o, multiLoop env o qs = true := by
          clear h ih
          induction qs with
          | nil => simp at hp
          | cons x xs ih =>
            intro o
            rcases List.mem_cons.1 hp with rfl | hp
            · simp [multiLoop, hd]
            · have := ih (by simp [hp]) hp
              simp only [multiLoop]
              split
              · rfl
              · split
                · exact this _
                · split
                  · rfl
                  · exact this _
              · exact this _
        simp only [multiLoop]
        split
        · rfl
        · split
          · exact hq _
          · split
            · rfl
            · exact hq _
        · exact hq _
  rw [isMultilingual, this none] at h
  cases h

theorem canHandle_iff {l : Str} {p q : P} : canHandle env l p = some q ↔ Speaks env l p q := by
  constructor
  · intro h
    unfold canHandle at h
    split at h
    · rename_i hp; cases h; exact .neutral (Or.inl hp)
    · rename_i hp; cases h; exact .neutral (Or.inr hp)
    · rename_i hp
      split at h
      · rename_i hl; cases h; exact .clone hp (by simpa using hl)
      · cases h
    · rename_i hp
      split at h
      · rename_i hl; cases h; exact .one hp (by simpa using hl)
      · cases h
  · intro h
    cases h with
    | neutral h => rcases h with h | h <;> simp [canHandle, h]
    | one h1 h2 => simp [canHandle, h1, h2]
    | clone h1 h2 => simp [canHandle, h1, h2]

theorem mem_filtre {l : Str} {alt : List P} {q : P} : q ∈ filtre env alt l ↔ ∃ p ∈ alt, Speaks env l p q := by
  simp [filtre, canHandle_iff]

/-- What speaks one language is not multilingual. -/
theorem filtre_not_multi (sane : Sane env) {l : Str} {alt : List P} : isMultilingual env (filtre env alt l) = false := by
  rw [← Bool.not_eq_true, isMultilingual_iff sane]
  have key : ∀ q ∈ filtre env alt l, env.handling q ≠ .dependent ∧ (env.handling q = .one → env.languages q = [l]) := by
    intro q hq
    obtain ⟨p, _, h⟩ := mem_filtre.1 hq
    cases h with
    | neutral h => rcases h with h | h <;> simp [h]
    | one h1 h2 =>
      obtain ⟨k, hk⟩ := sane.one _ h1
      rw [hk] at h2
      simp at h2
      subst h2
      simp [h1, hk]
    | clone h1 h2 =>
      obtain ⟨k1, k2⟩ := sane.clone p l h1 h2
      simp [k1, k2]
  rintro (⟨q, hq, h⟩ | ⟨p, hp, q, hq, h1, h2, h3⟩)
  · exact (key q hq).1 h
  · exact h3 (by rw [(key p hp).2 h1, (key q hq).2 h2])

theorem mem_fulfillers (sane : Sane env) {T : List Str} {o : Option Str} {q : P} (h : q ∈ findFulfillers env T o) :
    Offered env q T ∧ env.handling q ≠ .dependent := by
  simp only [findFulfillers, List.mem_filterMap] at h
  obtain ⟨f, hf, h⟩ := h
  split at h
  · rename_i hc
    simp only [Bool.and_eq_true] at hc
    have hT := isSubset_iff.1 hc.2
    have : (q = f.default ∧ env.handling q ≠ .dependent) ∨ ∃ l, q = f.withLang l ∧ env.handling q ≠ .dependent := by
      unfold defaultPromise at h
      split at h
      · rename_i hp; cases h; exact Or.inl ⟨rfl, by simp [hp]⟩
      · rename_i hp; cases h; exact Or.inl ⟨rfl, by simp [hp]⟩
      · rename_i hp
        split at h
        · cases h; exact Or.inl ⟨rfl, by simp [hp]⟩
        · split at h
          · cases h
          · cases h; exact Or.inl ⟨rfl, by simp [hp]⟩
      · rename_i hp
        split at h
        · cases h
        · rename_i l
          split at h
          · rename_i hl
            cases h
            exact Or.inr ⟨l, rfl, by rw [(sane.lang f hf hp l (by simpa using hl)).1]; simp⟩
          · cases h
    rcases this with ⟨h1, h2⟩ | ⟨l, h1, h2⟩
    · exact ⟨⟨f, hf, hT, Or.inl h1⟩, h2⟩
    · exact ⟨⟨f, hf, hT, Or.inr ⟨l, h1⟩⟩, h2⟩
  · cases h

/-- What is before the position: processors that do not depend on the language and have what they require. -/
def Ready (env : Env P) (d : List P) : Prop :=
  ∀ pre p post, d = pre ++ p :: post → env.handling p ≠ .dependent ∧ unfulfilled env pre p = none

theorem Ready.snoc {d : List P} {p : P} (h : Ready env d) (hp : env.handling p ≠ .dependent)
    (hu : unfulfilled env d p = none) : Ready env (d ++ [p]) := by
  intro pre q post e
  rcases List.eq_nil_or_concat post with rfl | ⟨post', z, rfl⟩
  · obtain ⟨rfl, e2⟩ := List.append_inj' e rfl
    cases e2
    exact ⟨hp, hu⟩
  · rw [List.concat_eq_append, ← List.cons_append, ← List.append_assoc] at e
    obtain ⟨e1, e2⟩ := List.append_inj' e rfl
    exact h pre q post' e1

theorem Ready.prefix {a b : List P} (h : Ready env (a ++ b)) : Ready env a := by
  intro pre p post e
  exact h pre p (post ++ b) (by rw [e]; simp)

theorem unfulfilled_none {d : List P} {p : P} : unfulfilled env d p = none ↔ ∀ T ∈ env.required p, ∃ q ∈ d, Provides env q T := by
  simp [unfulfilled, checkRequired_iff]

theorem unfulfilled_some {d : List P} {p : P} {T : List Str} (h : unfulfilled env d p = some T) :
    T ∈ env.required p ∧ ∀ q ∈ d, ¬ Provides env q T := by
  refine ⟨List.mem_of_find?_eq_some h, ?_⟩
  have := List.find?_some h
  simp only [Bool.not_eq_eq_eq_not, Bool.not_true] at this
  intro q hq hp
  rw [(checkRequired_iff (env := env)).2 ⟨q, hq, hp⟩] at this
  cases this

theorem ready_fulfilled {r : List P} (h : Ready env r) : Fulfilled env r :=
  fun pre p post e => unfulfilled_none.1 (h pre p post e).2

/-- Going over what is ready changes nothing. -/
theorem complete_skip {langs : List Str} (xs : List P) : ∀ {n : Nat} {before mid : List P} {todo : List (List P)},
    Ready env (before ++ mid ++ xs) → xs.length ≤ n →
    complete env langs n before mid (xs.map (fun p => [p]) ++ todo) = complete env langs (n - xs.length) before (mid ++ xs) todo := by
  induction xs with
  | nil => intro n before mid todo h hn; simp
  | cons x xs ih =>
    intro n before mid todo h hn
    cases n with
    | zero => simp at hn
    | succ n =>
      obtain ⟨h1, h2⟩ := h (before ++ mid) x xs rfl
      have h3 : isMultilingual env [x] = false := by rw [← Bool.not_eq_true, multi_single]; exact h1
      simp only [List.map_cons, List.cons_append, complete, h3, Bool.false_eq_true, if_false, h2]
      rw [ih (by simpa using h) (by simpa using hn)]
      simp

theorem complete_skip_short {langs : List Str} (xs : List P) : ∀ {n : Nat} {before mid : List P} {todo : List (List P)},
    Ready env (before ++ mid ++ xs) → n < xs.length →
    complete env langs n before mid (xs.map (fun p => [p]) ++ todo) = .error .steps := by
  induction xs with
  | nil => intro n before mid todo h hn; simp at hn
  | cons x xs ih =>
    intro n before mid todo h hn
    cases n with
    | zero => simp [complete]
    | succ n =>
      obtain ⟨h1, h2⟩ := h (before ++ mid) x xs rfl
      have h3 : isMultilingual env [x] = false := by rw [← Bool.not_eq_true, multi_single]; exact h1
      simp only [List.map_cons, List.cons_append, complete, h3, Bool.false_eq_true, if_false, h2]
      exact ih (by simpa using h) (by simpa using hn)

/-- The search on marked sequences: what is there, what is to do, what comes out. -/
inductive Expand (env : Env P) (langs : List Str) : List (P × Bool) → List (List P × Bool) → List (P × Bool) → Prop
  | stop {d} : Expand env langs d [] d
  | each {d alt b rest r} : isMultilingual env alt = true → (∀ l ∈ langs, filtre env alt l ≠ []) →
      Expand env langs d (langs.map (fun l => (filtre env alt l, b)) ++ rest) r → Expand env langs d ((alt, b) :: rest) r
  | choose {d alt b rest r p} : isMultilingual env alt = false → p ∈ alt →
      Expand env langs d (([p], b) :: rest) r → Expand env langs d ((alt, b) :: rest) r
  | keep {d p b rest r} : env.handling p ≠ .dependent → unfulfilled env (d.map Prod.fst) p = none →
      Expand env langs (d ++ [(p, b)]) rest r → Expand env langs d (([p], b) :: rest) r
  | insert {d p b rest r T} : env.handling p ≠ .dependent → unfulfilled env (d.map Prod.fst) p = some T →
      Expand env langs d ((findFulfillers env T (langOf env p), false) :: ([p], b) :: rest) r →
      Expand env langs d (([p], b) :: rest) r

theorem collect_mem {α β : Type} {g : α → Except Fault (List β)} : ∀ {as : List α} {ys : List β}, collect g as = .ok ys → ∀ y ∈ ys,
    ∃ a ∈ as, ∃ x, g a = .ok x ∧ y ∈ x := by
  intro as
  induction as with
  | nil => intro ys h y hy; simp [collect] at h; subst h; simp at hy
  | cons a as ih =>
    intro ys h y hy
    simp only [collect] at h
    cases ha : g a with
    | error e => rw [ha] at h; cases h
    | ok x =>
      rw [ha] at h
      cases hc : collect g as with
      | error e => rw [hc] at h; cases h
      | ok z =>
        rw [hc] at h
        cases h
        rcases List.mem_append.1 hy with hy | hy
        · exact ⟨a, by simp, x, ha, hy⟩
        · obtain ⟨b, hb, w, h1, h2⟩ := ih hc y hy
          exact ⟨b, by simp [hb], w, h1, h2⟩

/-- Every sequence that is found comes from the relation. -/
theorem complete_expand (langs : List Str) (n : Nat) : ∀ {d e : List (P × Bool)} {todo : List (List P × Bool)} {rs : List (List P)},
    Ready env ((d ++ e).map Prod.fst) →
    complete env langs n (d.map Prod.fst) (e.map Prod.fst) (todo.map Prod.fst) = .ok rs →
    ∀ r ∈ rs, ∃ m, m.map Prod.fst = r ∧ Expand env langs (d ++ e) todo m := by
  induction n using Nat.strongRecOn with
  | _ n ih =>
    intro d e todo rs hr h r hrs
    cases n with
    | zero => simp [complete] at h
    | succ n =>
      cases todo with
      | nil =>
        simp only [List.map_nil, complete, Except.ok.injEq] at h
        subst h
        simp only [List.mem_singleton] at hrs
        subst hrs
        exact ⟨d ++ e, by simp, .stop⟩
      | cons x rest =>
        obtain ⟨alt, b⟩ := x
        simp only [List.map_cons, complete] at h
        split at h
        · rename_i hm
          split at h
          · rename_i hl
            subst hl
            split at h
            · cases h
            · rename_i hmid
              by_cases hlen : (e.map Prod.fst).length ≤ n
              · have hr' : Ready env (d.map Prod.fst ++ [] ++ e.map Prod.fst) := by simpa using hr
                rw [complete_skip _ hr' hlen] at h
                simp only [List.nil_append] at h
                obtain ⟨m, h1, h2⟩ := ih _ (by omega) hr h r hrs
                exact ⟨m, h1, .each hm (by simp) (by simpa using h2)⟩
              · rw [complete_skip_short _ (by simpa using hr) (by omega)] at h
                cases h
          · split at h
            · simp only [Except.ok.injEq] at h; subst h; simp at hrs
            · rename_i hne
              have e1 : langs.map (filtre env alt) ++ rest.map Prod.fst =
                  (langs.map (fun l => (filtre env alt l, b)) ++ rest).map Prod.fst := by simp
              rw [e1, ← List.map_append] at h
              obtain ⟨m, h1, h2⟩ := ih n (by omega) (d := d ++ e) (e := []) (by simpa using hr) h r hrs
              refine ⟨m, h1, .each hm ?_ (by simpa using h2)⟩
              intro l hl he
              apply hne
              simp only [List.any_map, List.any_eq_true]
              exact ⟨l, hl, by simp [he]⟩
        · rename_i hm
          simp only [Bool.not_eq_true] at hm
          match alt, hm, h with
          | [], hm, h => cases h
          | [p], hm, h =>
            simp only at h
            have hp : env.handling p ≠ .dependent := multi_mem (by simp) hm
            rw [← List.map_append] at h
            cases hu : unfulfilled env ((d ++ e).map Prod.fst) p with
            | none =>
              rw [hu] at h
              simp only at h
              have e1 : e.map Prod.fst ++ [p] = (e ++ [(p, b)]).map Prod.fst := by simp
              rw [e1] at h
              obtain ⟨m, h1, h2⟩ := ih n (by omega) (e := e ++ [(p, b)]) (by
                have := hr.snoc hp hu
                simpa using this) h r hrs
              exact ⟨m, h1, .keep hp hu (by simpa using h2)⟩
            | some T =>
              rw [hu] at h
              simp only at h
              split at h
              · simp only [Except.ok.injEq] at h; subst h; simp at hrs
              · have e1 : findFulfillers env T (langOf env p) :: [p] :: rest.map Prod.fst =
                    ((findFulfillers env T (langOf env p), false) :: ([p], b) :: rest).map Prod.fst := by simp
                rw [e1] at h
                obtain ⟨m, h1, h2⟩ := ih n (by omega) (d := d ++ e) (e := []) (by simpa using hr) h r hrs
                exact ⟨m, h1, .insert hp hu (by simpa using h2)⟩
          | p :: q :: as, hm, h =>
            simp only at h
            obtain ⟨a, ha, x, hx, hrx⟩ := collect_mem h r hrs
            have e2 : ((d.map Prod.fst ++ e.map Prod.fst).map (fun q => [q]) ++ [a] :: rest.map Prod.fst) =
                (((d ++ e).map Prod.fst).map (fun p => [p]) ++ ((([a], b) :: rest).map Prod.fst)) := by simp
            rw [e2] at hx
            by_cases hlen : ((d ++ e).map Prod.fst).length ≤ n
            · rw [complete_skip _ (by simpa using hr) hlen] at hx
              have := ih (n - ((d ++ e).map Prod.fst).length) (by omega) (d := []) (e := d ++ e) (todo := ([a], b) :: rest)
                (by simpa using hr) (by simpa using hx) r hrx
              obtain ⟨m, h1, h2⟩ := this
              exact ⟨m, h1, .choose hm ha (by simpa using h2)⟩
            · rw [complete_skip_short _ (by simpa using hr) (by omega)] at hx
              cases hx

/-! ### What the relation gives -/

theorem Expand.ready {langs : List Str} {d m : List (P × Bool)} {todo : List (List P × Bool)} (h : Expand env langs d todo m) :
    Ready env (d.map Prod.fst) → Ready env (m.map Prod.fst) := by
  induction h with
  | stop => exact id
  | each _ _ _ ih => exact ih
  | choose _ _ _ ih => exact ih
  | keep hp hu _ ih =>
    intro hr
    apply ih
    rw [List.map_append]
    exact hr.snoc hp hu
  | insert _ _ _ ih => exact ih

theorem Expand.prefix {langs : List Str} {d m : List (P × Bool)} {todo : List (List P × Bool)} (h : Expand env langs d todo m) :
    d <+: m := by
  induction h with
  | stop => exact List.prefix_refl _
  | each _ _ _ ih => exact ih
  | choose _ _ _ ih => exact ih
  | keep hp hu _ ih => exact (List.prefix_append _ _).trans ih
  | insert _ _ _ ih => exact ih

/-- A single processor that does not depend on the language stays. -/
theorem Expand.single {langs : List Str} {d m : List (P × Bool)} {todo : List (List P × Bool)} (h : Expand env langs d todo m) :
    ∀ {p b}, ([p], b) ∈ todo → env.handling p ≠ .dependent → ∃ t, m = d ++ t ∧ p ∈ t.map Prod.fst := by
  induction h with
  | stop => intro p b h; simp at h
  | @each d alt b rest r hm hf _ ih =>
    intro p b' h hp
    rcases List.mem_cons.1 h with h | h
    · cases h
      rw [multi_single] at hm
      exact absurd hm hp
    · exact ih (List.mem_append_right _ h) hp
  | @choose d alt b rest r q hm hq _ ih =>
    intro p b' h hp
    rcases List.mem_cons.1 h with h | h
    · cases h
      simp only [List.mem_singleton] at hq
      subst hq
      exact ih List.mem_cons_self hp
    · exact ih (List.mem_cons_of_mem _ h) hp
  | @keep d q b rest r hq hu hx ih =>
    intro p b' h hp
    rcases List.mem_cons.1 h with h | h
    · cases h
      obtain ⟨t, ht⟩ := hx.prefix
      exact ⟨(q, b) :: t, by rw [← ht]; simp, by simp⟩
    · obtain ⟨t, h1, h2⟩ := ih h hp
      exact ⟨(q, b) :: t, by rw [h1]; simp, by simp only [List.map_cons, List.mem_cons]; exact Or.inr h2⟩
  | @insert d q b rest r T hq hu hx ih =>
    intro p b' h hp
    exact ih (by simp only [List.mem_cons] at h ⊢; exact Or.inr h) hp

theorem forall₂_append_split {α β : Type} {R : α → β → Prop} : ∀ {a b : List α} {s : List β}, List.Forall₂ R (a ++ b) s →
    ∃ s1 s2, List.Forall₂ R a s1 ∧ List.Forall₂ R b s2 ∧ s = s1 ++ s2
  | [], b, s, h => ⟨[], s, .nil, h, rfl⟩
  | x :: a, b, _, .cons (b := y) hx h => by
    obtain ⟨s1, s2, h1, h2, rfl⟩ := forall₂_append_split h
    exact ⟨y :: s1, s2, .cons hx h1, h2, rfl⟩

/-- The alternatives that were asked for are represented in order. -/
theorem Expand.chosen (sane : Sane env) {langs : List Str} {d m : List (P × Bool)} {todo : List (List P × Bool)}
    (h : Expand env langs d todo m) :
    ∃ t, m = d ++ t ∧ ∃ segs, List.Forall₂ (Chosen env langs) ((todo.filter (fun x => x.2)).map Prod.fst) segs ∧
      (t.filter (fun x => x.2)).map Prod.fst = segs.flatten := by
  induction h with
  | stop => exact ⟨[], by simp, [], by simp, by simp⟩
  | @each d alt b rest r hm hf _ ih =>
    obtain ⟨t, h1, segs, h2, h3⟩ := ih
    refine ⟨t, h1, ?_⟩
    cases b with
    | false =>
      refine ⟨segs, ?_, h3⟩
      have : (langs.map (fun l => (filtre env alt l, false))).filter (fun x => x.2) = [] := by simp
      simpa [this] using h2
    | true =>
      have e1 : ((langs.map (fun l => (filtre env alt l, true)) ++ rest).filter (fun x => x.2)).map Prod.fst =
          langs.map (filtre env alt) ++ (rest.filter (fun x => x.2)).map Prod.fst := by
        rw [List.filter_append, List.map_append]
        congr 1
        rw [List.filter_eq_self.2 (by simp)]
        simp
      rw [e1] at h2
      obtain ⟨s1, s2, h4, h5, rfl⟩ := forall₂_append_split h2
      refine ⟨s1.flatten :: s2, ?_, by simpa using h3⟩
      simp only [List.filter_cons_of_pos, List.map_cons]
      refine List.Forall₂.cons (Or.inr ⟨(isMultilingual_iff sane).1 hm, ?_⟩) h5
      have key : ∀ (ls : List Str) (s1 : List (List P)), List.Forall₂ (Chosen env langs) (ls.map (filtre env alt)) s1 →
          List.Forall₂ (fun l q => ∃ p ∈ alt, Speaks env l p q) ls s1.flatten := by
        intro ls
        induction ls with
        | nil => intro s1 h4; cases h4; simp
        | cons l ls ihl =>
          intro s1 h4
          cases h4 with
          | cons ha hb =>
            rcases ha with ⟨_, p, hp, rfl⟩ | ⟨ha, _⟩
            · simp only [List.flatten_cons, List.singleton_append]
              exact List.Forall₂.cons (mem_filtre.1 hp) (ihl _ hb)
            · rw [← isMultilingual_iff sane, filtre_not_multi sane] at ha
              cases ha
      exact key langs s1 h4
  | @choose d alt b rest r p hm hp _ ih =>
    obtain ⟨t, h1, segs, h2, h3⟩ := ih
    refine ⟨t, h1, ?_⟩
    cases b with
    | false => exact ⟨segs, by simpa using h2, h3⟩
    | true =>
      simp only [List.filter_cons_of_pos, List.map_cons] at h2 ⊢
      cases h2 with
      | cons ha hb =>
        refine ⟨_ :: _, List.Forall₂.cons (Or.inl ⟨?_, p, hp, ?_⟩) hb, h3⟩
        · rw [← isMultilingual_iff sane, hm]; simp
        · rcases ha with ⟨_, q, hq, rfl⟩ | ⟨ha, _⟩
          · simp only [List.mem_singleton] at hq; rw [hq]
          · rw [← isMultilingual_iff sane, multi_single] at ha
            exact absurd ha (multi_mem hp hm)
  | @keep d p b rest r hp hu _ ih =>
    obtain ⟨t, h1, segs, h2, h3⟩ := ih
    refine ⟨(p, b) :: t, by rw [h1]; simp, ?_⟩
    cases b with
    | false => exact ⟨segs, by simpa using h2, by simpa using h3⟩
    | true =>
      refine ⟨[p] :: segs, ?_, by simp [h3]⟩
      simp only [List.filter_cons_of_pos, List.map_cons]
      refine List.Forall₂.cons (Or.inl ⟨?_, p, by simp, rfl⟩) h2
      rw [← isMultilingual_iff sane, multi_single]
      exact hp
  | @insert d p b rest r T hp hu _ ih =>
    obtain ⟨t, h1, segs, h2, h3⟩ := ih
    exact ⟨t, h1, segs, by simpa using h2, h3⟩

/-- Every inserted alternative that is to be looked at has its reason. -/
def Justified (env : Env P) (d : List (P × Bool)) : List (List P × Bool) → Prop
  | [] => True
  | (alt, b) :: rest =>
    (b = true → ∀ x ∈ rest, x.2 = true) ∧
    (b = false → ∃ T, (∀ q ∈ alt, Offered env q T ∧ env.handling q ≠ .dependent) ∧
      (∃ p c, ([p], c) ∈ rest ∧ env.handling p ≠ .dependent ∧ T ∈ env.required p) ∧
      ∃ x y, d = x ++ y ∧ (∀ z ∈ x, ¬ Provides env z.1 T) ∧ ∀ z ∈ y, z.2 = false) ∧
    Justified env d rest

theorem Justified.true {d : List (P × Bool)} : ∀ {todo : List (List P × Bool)}, (∀ x ∈ todo, x.2 = true) → Justified env d todo
  | [], _ => trivial
  | (alt, b) :: rest, h => ⟨fun _ x hx => h x (by simp [hx]), fun hb => (by
      have := h (alt, b) (by simp)
      simp only at this
      rw [this] at hb
      cases hb), Justified.true (fun x hx => h x (by simp [hx]))⟩

theorem Justified.keep {d : List (P × Bool)} {q : P} : ∀ {todo : List (List P × Bool)}, Justified env d todo →
    Justified env (d ++ [(q, false)]) todo
  | [], _ => trivial
  | (alt, b) :: rest, h => by
    refine ⟨h.1, fun hb => ?_, h.2.2.keep⟩
    obtain ⟨T, h1, h2, x, y, h3, h4, h5⟩ := h.2.1 hb
    refine ⟨T, h1, h2, x, y ++ [(q, false)], by rw [h3]; simp, h4, ?_⟩
    intro z hz
    rcases List.mem_append.1 hz with hz | hz
    · exact h5 z hz
    · simp only [List.mem_singleton] at hz; rw [hz]

theorem Justified.mono {d : List (P × Bool)} {alt alt' : List P} {b : Bool} {rest : List (List P × Bool)}
    (h : Justified env d ((alt, b) :: rest)) (ha : ∀ q ∈ alt', (∀ T, (∀ q ∈ alt, Offered env q T ∧ env.handling q ≠ .dependent) →
      Offered env q T ∧ env.handling q ≠ .dependent)) : Justified env d ((alt', b) :: rest) := by
  refine ⟨h.1, fun hb => ?_, h.2.2⟩
  obtain ⟨T, h1, h2⟩ := h.2.1 hb
  exact ⟨T, fun q hq => ha q hq T h1, h2⟩

/-- What was inserted was needed. -/
theorem Expand.needed (sane : Sane env) {langs : List Str} {d m : List (P × Bool)} {todo : List (List P × Bool)}
    (h : Expand env langs d todo m) : Justified env d todo →
    (∀ pre q post, d = pre ++ (q, false) :: post → ∃ p ∈ (post.map Prod.fst) ++ (m.drop d.length).map Prod.fst,
      ∃ T ∈ env.required p, Offered env q T ∧
      ∃ a b, pre = a ++ b ∧ (∀ x ∈ a, ¬ Provides env x.1 T) ∧ ∀ x ∈ b, x.2 = false) → Needed env m := by
  induction h with
  | @stop d =>
    intro _ hd pre q post e
    obtain ⟨p, h1, h2⟩ := hd pre q post e
    exact ⟨p, by simpa using h1, h2⟩
  | @each d alt b rest r hm hf _ ih =>
    intro hj
    apply ih
    have key : ∀ ls : List Str, Justified env d (ls.map (fun l => (filtre env alt l, b)) ++ rest) := by
      intro ls
      induction ls with
      | nil => exact hj.2.2
      | cons l ls ihl =>
        refine ⟨fun hb => ?_, fun hb => ?_, ihl⟩
        · intro x hx
          rcases List.mem_append.1 hx with hx | hx
          · obtain ⟨_, _, rfl⟩ := List.mem_map.1 hx; exact hb
          · exact hj.1 hb x hx
        · obtain ⟨T, h1, ⟨p, c, h2, h3⟩, h4⟩ := hj.2.1 hb
          refine ⟨T, ?_, ⟨p, c, List.mem_append_right _ h2, h3⟩, h4⟩
          intro q hq
          obtain ⟨p', hp', hs⟩ := mem_filtre.1 hq
          cases hs with
          | neutral h => exact h1 _ hp'
          | one h _ => exact h1 _ hp'
          | clone h _ => exact absurd h (h1 _ hp').2
    exact key langs
  | @choose d alt b rest r p hm hp _ ih =>
    intro hj
    apply ih
    refine hj.mono ?_
    intro q hq T hT
    simp only [List.mem_singleton] at hq
    subst hq
    exact hT _ hp
  | @keep d p b rest r hp hu hx ih =>
    intro hj hd
    obtain ⟨t, ht⟩ := hx.prefix
    have hdrop : r.drop d.length = (p, b) :: t := by rw [← ht]; simp
    have hdrop2 : r.drop (d ++ [(p, b)]).length = t := by rw [← ht]; simp
    apply ih
    · cases b with
      | true => exact Justified.true (hj.1 rfl)
      | false => exact hj.2.2.keep
    · intro pre q post e
      rw [hdrop2]
      rcases List.eq_nil_or_concat post with rfl | ⟨post', z, rfl⟩
      · obtain ⟨rfl, e2⟩ := List.append_inj' e rfl
        cases e2
        obtain ⟨T, h1, ⟨w, c, h2, h3, h4⟩, h5⟩ := hj.2.1 rfl
        obtain ⟨t', h6, h7⟩ := hx.single h2 h3
        have : t' = t := by
          rw [← ht] at h6
          exact (List.append_cancel_left h6).symm
        subst this
        exact ⟨w, by simpa using h7, T, h4, (h1 _ (by simp)).1, h5⟩
      · rw [List.concat_eq_append, ← List.cons_append, ← List.append_assoc] at e
        obtain ⟨e1, e2⟩ := List.append_inj' e rfl
        cases e2
        obtain ⟨w, h1, h2⟩ := hd pre q post' e1
        rw [hdrop] at h1
        exact ⟨w, by simpa using h1, h2⟩
  | @insert d p b rest r T hp hu hx ih =>
    intro hj hd
    obtain ⟨k1, k2⟩ := unfulfilled_some hu
    apply ih
    · refine ⟨fun h => (by cases h), fun _ => ⟨T, fun q hq => mem_fulfillers sane hq, ⟨p, b, by simp, hp, k1⟩, d, [], by simp, ?_, by simp⟩, hj⟩
      intro z hz
      exact k2 z.1 (List.mem_map.2 ⟨z, hz, rfl⟩)
    · exact hd

end Verif.Pipeline
