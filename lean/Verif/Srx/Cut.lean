import Verif.Srx.Lemmas
import Mathlib.Data.List.Forall2
import Mathlib.Data.List.Induction

set_option linter.unusedSimpArgs false
set_option linter.unusedVariables false

namespace Verif.Srx
open Verif Utf8

/-- What is needed of the matches of a rule. -/
structure Fine (ex : Prop) (text : Str) (breaks : Nat → List Nat) : Prop where
  sane : SaneB text breaks
  single : ex → ∀ m, (breaks m).length ≤ 1
  mono : ex → ∀ m m' p p', m ≤ m' → p ∈ breaks m → p' ∈ breaks m' → p ≤ p'

/-- No match of the rule goes across `pos`. -/
def Clean (ex : Prop) (pos : Nat) (breaks : Nat → List Nat) : Prop := ex → ∀ m < pos, ∀ p ∈ breaks m, p ≤ pos

theorem nearer_le {c : Cand} {brk : Option Nat} {k p0 k0 : Nat} (h : c = some (p0, k0)) : ∃ p k', nearer c brk k = some (p, k') ∧ p ≤ p0 := by
  subst h
  cases brk with
  | none => exact ⟨p0, k0, rfl, Nat.le_refl _⟩
  | some b =>
    simp only [nearer]
    split
    · exact ⟨b, k, rfl, by omega⟩
    · exact ⟨p0, k0, rfl, Nat.le_refl _⟩

theorem nearer_le' {c : Cand} {k b : Nat} : ∃ p k', nearer c (some b) k = some (p, k') ∧ p ≤ b := by
  cases c with
  | none => exact ⟨b, k, rfl, Nat.le_refl _⟩
  | some c =>
    obtain ⟨p0, k0⟩ := c
    simp only [nearer]
    split
    · exact ⟨b, k, rfl, Nat.le_refl _⟩
    · exact ⟨p0, k0, rfl, by omega⟩

theorem nearer_eq {c : Cand} {brk : Option Nat} {k p k' : Nat} (h : nearer c brk k = some (p, k')) :
    c = some (p, k') ∨ (brk = some p ∧ k' = k ∧ ∀ p0 k0, c = some (p0, k0) → p < p0) := by
  cases brk with
  | none => exact Or.inl h
  | some b =>
    cases c with
    | none =>
      simp only [nearer, Option.some.injEq, Prod.mk.injEq] at h
      exact Or.inr ⟨by rw [h.1], h.2.symm, by simp⟩
    | some c =>
      obtain ⟨p0, k0⟩ := c
      simp only [nearer] at h
      split at h
      · simp only [Option.some.injEq, Prod.mk.injEq] at h
        right
        refine ⟨by rw [h.1], h.2.symm, ?_⟩
        intro p1 k1 e
        simp only [Option.some.injEq, Prod.mk.injEq] at e
        omega
      · exact Or.inl h

theorem scan_spec {ex : Prop} {text : Str} (hw : Spec.WellFormed text) {lo min pos fuel : Nat} (hlo : lo ≤ min) (hpos : pos < min)
    (hb : Boundary text pos) (hf : text.length < fuel) :
    ∀ (rs : List ((Nat → List Nat) × Nat)) (as : List App) (c : Cand), (∀ r ∈ rs, Fine ex text r.1 ∧ Clean ex pos r.1) →
    List.Forall₂ (fun r a => Inv ex text r.1 lo a) rs as →
    ∃ c' as', scan fuel text min pos rs as c = some (c', as') ∧ List.Forall₂ (fun r a => Inv ex text r.1 min a) rs as' ∧
      (∀ p0 k0, c = some (p0, k0) → ∃ p k, c' = some (p, k) ∧ p ≤ p0) ∧
      (ex → ∀ r ∈ rs, ∀ m, ∀ q ∈ r.1 m, min ≤ q → q < text.length → ∃ p k, c' = some (p, k) ∧ p ≤ q) ∧
      (∀ p k, c' = some (p, k) → c = some (p, k) ∨
        ((∀ p0 k0, c = some (p0, k0) → p < p0) ∧ min ≤ p ∧ Boundary text p ∧
          ∃ r1 b r2, rs = r1 ++ (b, k) :: r2 ∧ (∃ m, p ∈ b m) ∧ (ex → p < text.length → ∀ x ∈ r1, ∀ m, p ∉ x.1 m))) := by
  intro rs
  induction rs with
  | nil =>
    intro as c _ h
    cases h
    exact ⟨c, [], rfl, .nil, fun p0 k0 e => ⟨p0, k0, e, Nat.le_refl _⟩, by simp, fun p k e => Or.inl e⟩
  | cons r rs ih =>
    intro as c hr h
    obtain ⟨b0, k0⟩ := r
    cases h with
    | cons ha has =>
      rename_i a as
      obtain ⟨hfine, hclean⟩ := hr (b0, k0) (by simp)
      obtain ⟨a', e1, hu⟩ := update_spec hw hfine.sane hfine.single hfine.mono ha hlo hpos hb hclean hf
      obtain ⟨c', as', e2, i1, i2, i3, i4⟩ := ih as (nearer c a'.brk k0) (fun r h => hr r (by simp [h])) has
      simp only at e1
      refine ⟨c', a' :: as', by simp [scan, e1, e2], .cons hu.inv i1, ?_, ?_, ?_⟩
      · intro p1 k1 e
        obtain ⟨p2, k2, e3, h3⟩ := nearer_le (brk := a'.brk) (k := k0) e
        obtain ⟨p3, k3, e4, h4⟩ := i2 _ _ e3
        exact ⟨p3, k3, e4, by omega⟩
      · intro e r hr' m q hq h1 h2
        rw [List.mem_cons] at hr'
        rcases hr' with rfl | hr'
        · obtain ⟨b, hb1, hb2⟩ := hu.least e m q hq h1 h2
          obtain ⟨p2, k2, e3, h3⟩ := nearer_le' (c := c) (k := k0) (b := b)
          rw [← hb1] at e3
          obtain ⟨p3, k3, e4, h4⟩ := i2 _ _ e3
          exact ⟨p3, k3, e4, by omega⟩
        · exact i3 e r hr' m q hq h1 h2
      · intro p k e
        rcases i4 p k e with h1 | ⟨h1, h2, h3, r1, b, r2, h4, h5, h6⟩
        · rcases nearer_eq h1 with h1' | ⟨h1', rfl, h2⟩
          · exact Or.inl h1'
          · right
            exact ⟨h2, hu.le p h1', hu.inv.ok.brk p h1', [], b0, rs, rfl, hu.inv.here p h1', by simp⟩
        · right
          refine ⟨?_, h2, h3, (b0, k0) :: r1, b, r2, by rw [h4]; rfl, h5, ?_⟩
          · intro p0 k1 e0
            obtain ⟨p2, k2, e3, h7⟩ := nearer_le (brk := a'.brk) (k := k0) e0
            have := h1 _ _ e3
            omega
          · intro hex hpn x hx m hm
            rw [List.mem_cons] at hx
            rcases hx with rfl | hx
            · obtain ⟨b', hb1, hb2⟩ := hu.least hex m p hm h2 hpn
              obtain ⟨p2, k2, e3, h7⟩ := nearer_le' (c := c) (k := k0) (b := b')
              rw [← hb1] at e3
              have := h1 _ _ e3
              omega
            · exact h6 hex hpn x hx m hm

theorem check_spec {ex : Prop} {text : Str} (hw : Spec.WellFormed text) {lo p pos fuel : Nat} (hlo : lo ≤ p) (hpos : pos < p)
    (hb : Boundary text pos) (hf : text.length < fuel) :
    ∀ (rs : List (Nat → List Nat)) (count : Nat) (as : List App), (∀ r ∈ rs, Fine ex text r ∧ Clean ex pos r) →
    List.Forall₂ (fun r a => Inv ex text r lo a) rs as →
    ∃ ok as', check fuel text p pos count rs as = some (ok, as') ∧ List.Forall₂ (fun r a => Inv ex text r p a) rs as' ∧
      (ex → p < text.length → (ok = true ↔ ∀ x ∈ rs.take count, ∀ m, p ∉ x m)) := by
  intro rs
  induction rs with
  | nil =>
    intro count as _ h
    cases h
    refine ⟨true, [], ?_, .nil, by simp⟩
    cases count <;> rfl
  | cons r rs ih =>
    intro count as hr h
    cases count with
    | zero => exact ⟨true, as, rfl, h.imp (fun _ _ h => h.weaken hlo), by simp⟩
    | succ count =>
      cases h with
      | cons ha has =>
        rename_i a as
        obtain ⟨hfine, hclean⟩ := hr r (by simp)
        obtain ⟨a', e1, hu⟩ := update_spec hw hfine.sane hfine.single hfine.mono ha hlo hpos hb hclean hf
        by_cases hp : a'.brk = some p
        · refine ⟨false, a' :: as, by simp [check, e1, hp], .cons hu.inv (has.imp (fun _ _ h => h.weaken hlo)), ?_⟩
          intro _ _
          constructor
          · simp
          · intro hall
            obtain ⟨m, hm⟩ := hu.inv.here p hp
            exact absurd hm (hall r (by simp) m)
        · obtain ⟨ok, as', e2, i1, i2⟩ := ih count as (fun r h => hr r (by simp [h])) has
          refine ⟨ok, a' :: as', by simp [check, e1, hp, e2], .cons hu.inv i1, ?_⟩
          intro hex hpn
          rw [i2 hex hpn]
          constructor
          · intro hall x hx m hm
            rw [List.take_succ_cons, List.mem_cons] at hx
            rcases hx with rfl | hx
            · obtain ⟨b, hb1, hb2⟩ := hu.least hex m p hm (Nat.le_refl _) hpn
              have := hu.le b hb1
              have : b = p := by omega
              subst this
              exact hp hb1
            · exact hall x hx m hm
          · intro hall x hx
            exact hall x (by rw [List.take_succ_cons]; simp [hx])

/-- The first breaking rule that matches is not after a non-breaking one that matches. -/
def Verdict (R : Rules) (p : Nat) : Prop :=
  ∃ r1 b k r2, R.breaking = r1 ++ (b, k) :: r2 ∧ (∃ m, p ∈ b m) ∧ (∀ x ∈ r1, ∀ m, p ∉ x.1 m) ∧
    ∀ x ∈ R.nonBreaking.take k, ∀ m, p ∉ x m

theorem first_unique {α : Type} {P : α → Prop} {x x' : α} {l2 l2' : List α} (hx : P x) (hx' : P x') :
    ∀ {l1 l1' : List α}, (∀ y ∈ l1, ¬ P y) → (∀ y ∈ l1', ¬ P y) → l1 ++ x :: l2 = l1' ++ x' :: l2' → x = x'
  | [], [], _, _, e => by simp at e; exact e.1
  | [], y :: l, _, h, e => by
    simp at e
    exact absurd (e.1 ▸ hx) (h y (by simp))
  | y :: l, [], h, _, e => by
    simp at e
    exact absurd (e.1.symm ▸ hx') (h y (by simp))
  | y :: l, y' :: l', h, h', e => by
    simp at e
    exact first_unique hx hx' (fun z hz => h z (by simp [hz])) (fun z hz => h' z (by simp [hz])) e.2

theorem Verdict.matches_ {R : Rules} {p : Nat} (h : Verdict R p) : ∃ r ∈ R.breaking, ∃ m, p ∈ r.1 m := by
  obtain ⟨r1, b, k, r2, h1, h2, _⟩ := h
  exact ⟨(b, k), by rw [h1]; simp, h2⟩

structure Invs (ex : Prop) (text : Str) (R : Rules) (lo : Nat) (st : Apps) : Prop where
  breaking : List.Forall₂ (fun r a => Inv ex text r.1 lo a) R.breaking st.breaking
  nonBreaking : List.Forall₂ (fun r a => Inv ex text r lo a) R.nonBreaking st.nonBreaking

theorem Invs.weaken {ex : Prop} {text : Str} {R : Rules} {lo lo' : Nat} {st : Apps} (h : Invs ex text R lo st) (hl : lo ≤ lo') :
    Invs ex text R lo' st :=
  ⟨h.breaking.imp (fun _ _ h => h.weaken hl), h.nonBreaking.imp (fun _ _ h => h.weaken hl)⟩

/-- All rules. -/
structure AllFine (ex : Prop) (text : Str) (R : Rules) : Prop where
  breaking : ∀ r ∈ R.breaking, Fine ex text r.1
  nonBreaking : ∀ r ∈ R.nonBreaking, Fine ex text r

structure AllClean (ex : Prop) (pos : Nat) (R : Rules) : Prop where
  breaking : ∀ r ∈ R.breaking, Clean ex pos r.1
  nonBreaking : ∀ r ∈ R.nonBreaking, Clean ex pos r

/-- What is known about where the next piece ends. -/
structure CutsAt (ex : Prop) (text : Str) (R : Rules) (pos p : Nat) : Prop where
  lt : pos < p
  bound : Boundary text p
  here : ex → p < text.length → Verdict R p
  first : ex → ∀ q, pos < q → q < p → ¬ Verdict R q

theorem step_min {text : Str} (hw : Spec.WellFormed text) {p : Nat} (hb : Boundary text p) :
    p < p + symAt text p ∧ ∀ q, Boundary text q → p < q → p + symAt text p ≤ q := by
  rcases Nat.lt_or_ge p text.length with h | h
  · obtain ⟨h1, h2, h3⟩ := symAt_boundary hb h
    exact ⟨by omega, h3⟩
  · have : p = text.length := by have := hb.1; omega
    subst this
    rw [symAt_end]
    exact ⟨by omega, fun q hq hlt => by have := hq.1; omega⟩

theorem cutLoop_spec {ex : Prop} {text : Str} (hw : Spec.WellFormed text) {R : Rules} (hR : AllFine ex text R) {pos fuel : Nat}
    (hc : AllClean ex pos R) (hb : Boundary text pos) (hf : text.length < fuel) :
    ∀ (rounds min lo : Nat) (st : Apps), pos < min → lo ≤ min → text.length + 1 - min < rounds → Invs ex text R lo st →
    (ex → ∀ q, pos < q → q < min → q < text.length → ¬ Verdict R q) →
    ∃ res st', cutLoop fuel text R pos rounds min st = some (res, st') ∧
      (∀ p, res = some p → min ≤ p ∧ CutsAt ex text R pos p ∧ Invs ex text R p st') ∧
      (res = none → ex → ∀ q, pos < q → q < text.length → ¬ Verdict R q) := by
  intro rounds
  induction rounds with
  | zero => intro min lo st _ _ h; omega
  | succ rounds ih =>
    intro min lo st hpos hlo hr hi hbefore
    obtain ⟨c, as, e1, i1, i2, i3, i4⟩ := scan_spec hw hlo hpos hb hf R.breaking st.breaking none
      (fun r h => ⟨hR.breaking r h, hc.breaking r h⟩) hi.breaking
    cases hcand : c with
    | none =>
      subst hcand
      refine ⟨none, ⟨as, st.nonBreaking⟩, by simp [cutLoop, e1], by simp, ?_⟩
      intro _ hex q h1 h2 hv
      rcases Nat.lt_or_ge q min with h3 | h3
      · exact hbefore hex q h1 h3 h2 hv
      · obtain ⟨r, hr', m, hm⟩ := hv.matches_
        obtain ⟨p, k, e, _⟩ := i3 hex r hr' m q hm h3 h2
        simp at e
    | some pk =>
      obtain ⟨p, k⟩ := pk
      subst hcand
      rcases i4 p k rfl with h | ⟨_, h2, h3, r1, b, r2, h4, h5, h6⟩
      · simp at h
      · obtain ⟨ok, ns, e2, j1, j2⟩ := check_spec (ex := ex) (lo := lo) (p := p) hw (by omega) (by omega) hb hf R.nonBreaking k st.nonBreaking
          (fun r h => ⟨hR.nonBreaking r h, hc.nonBreaking r h⟩) hi.nonBreaking
        have hnone : ex → ∀ q, pos < q → q < p → ¬ Verdict R q := by
          intro hex q hq1 hq2 hv
          rcases Nat.lt_or_ge q min with h7 | h7
          · exact hbefore hex q hq1 h7 (by have := h3.1; omega) hv
          · obtain ⟨r, hr', m, hm⟩ := hv.matches_
            obtain ⟨p', k', e, hle⟩ := i3 hex r hr' m q hm h7 (by have := h3.1; omega)
            simp only [Option.some.injEq, Prod.mk.injEq] at e
            omega
        have hinv : Invs ex text R p ⟨as, ns⟩ := ⟨i1.imp (fun _ _ h => h.weaken h2), j1⟩
        cases ok with
        | true =>
          refine ⟨some p, ⟨as, ns⟩, by simp [cutLoop, e1, e2], ?_, by simp⟩
          intro p' hp'
          simp only [Option.some.injEq] at hp'
          subst hp'
          refine ⟨h2, ⟨by omega, h3, ?_, hnone⟩, hinv⟩
          intro hex hpn
          exact ⟨r1, b, k, r2, h4, h5, h6 hex hpn, (j2 hex hpn).1 rfl⟩
        | false =>
          obtain ⟨s1, s2⟩ := step_min hw h3
          have hp := h3.1
          obtain ⟨res, st', e3, k1, k2⟩ := ih (p + symAt text p) p ⟨as, ns⟩ (by omega) (by omega) (by omega) hinv (by
            intro hex q hq1 hq2 hqn hv
            rcases Nat.lt_trichotomy q p with h7 | h7 | h7
            · exact hnone hex q hq1 h7 hv
            · subst h7
              obtain ⟨r1', b', k', r2', g1, g2, g3, g4⟩ := hv
              have := first_unique (P := fun x : (Nat → List Nat) × Nat => ∃ m, q ∈ x.1 m) h5 g2
                (fun y hy => by simpa using h6 hex hqn y hy) (fun y hy => by simpa using g3 y hy) (h4.symm.trans g1)
              simp only [Prod.mk.injEq] at this
              rw [← this.2] at g4
              have := (j2 hex hqn).2 g4
              simp at this
            · obtain ⟨r, hr', m, hm⟩ := hv.matches_
              have := s2 q ((hR.breaking r hr').sane m q hm).2.2 h7
              omega)
          refine ⟨res, st', by simp [cutLoop, e1, e2, e3], ?_, k2⟩
          intro p' hp'
          obtain ⟨g1, g2, g3⟩ := k1 p' hp'
          exact ⟨by omega, g2, g3⟩

theorem cutOff_spec {ex : Prop} {text : Str} (hw : Spec.WellFormed text) {R : Rules} (hR : AllFine ex text R) {pos fuel : Nat}
    (hc : AllClean ex pos R) (hb : Boundary text pos) (hf : text.length + 1 < fuel) (st : Apps) (hi : Invs ex text R pos st) :
    ∃ res st', cutOff fuel text R pos st = some (res, st') ∧
      (∀ p, res = some p → CutsAt ex text R pos p ∧ Invs ex text R p st') ∧
      (res = none → ex → ∀ q, pos < q → q < text.length → ¬ Verdict R q) := by
  obtain ⟨s1, s2⟩ := step_min hw hb
  obtain ⟨res, st', e, h1, h2⟩ := cutLoop_spec (fuel := fuel) hw hR hc hb (by omega) fuel (pos + symAt text pos) pos st s1 (by omega) (by omega) hi (by
    intro hex q h1 h2 h3 hv
    obtain ⟨r, hr', m, hm⟩ := hv.matches_
    have := s2 q ((hR.breaking r hr').sane m q hm).2.2 h1
    omega)
  exact ⟨res, st', e, fun p hp => (h1 p hp).2, h2⟩

/-- The cuts from `pos` on. -/
structure Cuts (ex : Prop) (text : Str) (R : Rules) (pos : Nat) (l : List (Nat × Nat)) : Prop where
  tiles : Tiles text.length pos l
  bound : ∀ x ∈ l, Boundary text x.1 ∧ Boundary text x.2
  exact : ex → ∀ p, pos < p → p < text.length → ((∃ x ∈ l, x.1 = p) ↔ Verdict R p)

theorem Tiles.ge {n i : Nat} {l : List (Nat × Nat)} (h : Tiles n i l) : ∀ x ∈ l, i ≤ x.1 := by
  induction l generalizing i with
  | nil => simp
  | cons x l ih =>
    obtain ⟨a, b⟩ := x
    obtain ⟨rfl, h2, h3⟩ := h
    intro x hx
    rw [List.mem_cons] at hx
    rcases hx with rfl | hx
    · exact Nat.le_refl _
    · have := ih h3 x hx
      omega

theorem Tiles.le {n i : Nat} {l : List (Nat × Nat)} (h : Tiles n i l) : i ≤ n := by
  induction l generalizing i with
  | nil => exact Nat.le_of_eq h
  | cons x l ih =>
    obtain ⟨a, b⟩ := x
    obtain ⟨rfl, h2, h3⟩ := h
    have := ih h3
    omega

theorem Tiles.mem_head {n i : Nat} {l : List (Nat × Nat)} (h : Tiles n i l) (hi : i < n) : ∃ x ∈ l, x.1 = i := by
  cases l with
  | nil => simp [Tiles] at h; omega
  | cons x l =>
    obtain ⟨a, b⟩ := x
    exact ⟨(a, b), by simp, h.1⟩

theorem cutAll_spec {ex : Prop} {text : Str} (hw : Spec.WellFormed text) {R : Rules} (hR : AllFine ex text R) {fuel : Nat}
    (hf : text.length + 1 < fuel) (hcl : ex → ∀ p, p < text.length → Verdict R p → AllClean ex p R) :
    ∀ (rounds pos : Nat) (st : Apps), AllClean ex pos R ∨ text.length ≤ pos → Boundary text pos → Invs ex text R pos st → text.length - pos < rounds →
    ∃ l, cutAll fuel text R rounds pos st = some l ∧ Cuts ex text R pos l := by
  intro rounds
  induction rounds with
  | zero => intro pos st _ _ _ h; omega
  | succ rounds ih =>
    intro pos st hc hb hi hr
    rw [cutAll]
    by_cases hlt : pos < text.length
    · rw [if_pos hlt]
      have hc : AllClean ex pos R := by rcases hc with h | h; exact h; omega
      obtain ⟨res, st', e, h1, h2⟩ := cutOff_spec hw hR hc hb hf st hi
      cases res with
      | none =>
        refine ⟨[(pos, text.length)], by simp [e], ⟨⟨rfl, hlt, rfl⟩, by simp [hb, boundary_length hw], ?_⟩⟩
        intro hex p k1 k2
        constructor
        · rintro ⟨x, hx, rfl⟩
          simp at hx; subst hx
          simp at k1
        · intro hv
          exact (h2 rfl hex p k1 k2 hv).elim
      | some p =>
        obtain ⟨hcut, hinv⟩ := h1 p rfl
        have hclean : AllClean ex p R ∨ text.length ≤ p := by
          by_cases hex : ex
          · rcases Nat.lt_or_ge p text.length with h | h
            · exact Or.inl (hcl hex p h (hcut.here hex h))
            · exact Or.inr h
          · exact Or.inl ⟨fun r _ h => (hex h).elim, fun r _ h => (hex h).elim⟩
        obtain ⟨l, e2, hl⟩ := ih p st' hclean hcut.bound hinv (by have := hcut.lt; omega)
        refine ⟨(pos, p) :: l, by simp [e, e2], ⟨⟨rfl, hcut.lt, hl.tiles⟩, ?_, ?_⟩⟩
        · intro x hx
          rw [List.mem_cons] at hx
          rcases hx with rfl | hx
          · exact ⟨hb, hcut.bound⟩
          · exact hl.bound x hx
        · intro hex q k1 k2
          rcases Nat.lt_trichotomy q p with h | h | h
          · constructor
            · rintro ⟨x, hx, rfl⟩
              rw [List.mem_cons] at hx
              rcases hx with rfl | hx
              · simp at k1
              · have := hl.tiles.ge x hx
                omega
            · intro hv
              exact (hcut.first hex q k1 h hv).elim
          · subst h
            constructor
            · intro _; exact hcut.here hex k2
            · intro _
              obtain ⟨x, hx, e3⟩ := hl.tiles.mem_head k2
              exact ⟨x, by simp [hx], e3⟩
          · rw [← hl.exact hex q h k2]
            constructor
            · rintro ⟨x, hx, rfl⟩
              rw [List.mem_cons] at hx
              rcases hx with rfl | hx
              · simp at k1
              · exact ⟨x, hx, rfl⟩
            · rintro ⟨x, hx, rfl⟩
              exact ⟨x, by simp [hx], rfl⟩
    · rw [if_neg hlt]
      have hpn : pos = text.length := by have := hb.1; omega
      exact ⟨[], rfl, ⟨hpn, by simp, fun _ p k1 k2 => by omega⟩⟩

/-! ### Rules in order -/

theorem process_append (rules : List Rule) (r : Rule) : process (rules ++ [r]) = (process rules).add r := by
  simp [process, List.foldl_append]

theorem process_mem {rules : List Rule} :
    (∀ x ∈ (process rules).breaking, ∃ r ∈ rules, r.breaks = x.1) ∧ (∀ x ∈ (process rules).nonBreaking, ∃ r ∈ rules, r.breaks = x) := by
  induction rules using List.reverseRecOn with
  | nil => simp [process]
  | append_singleton l r ih =>
    rw [process_append, Rules.add]
    split
    · refine ⟨?_, ?_⟩
      · intro x hx
        simp only [List.mem_append, List.mem_singleton] at hx
        rcases hx with hx | rfl
        · obtain ⟨r', h1, h2⟩ := ih.1 x hx
          exact ⟨r', by simp [h1], h2⟩
        · exact ⟨r, by simp, rfl⟩
      · intro x hx
        obtain ⟨r', h1, h2⟩ := ih.2 x hx
        exact ⟨r', by simp [h1], h2⟩
    · refine ⟨?_, ?_⟩
      · intro x hx
        obtain ⟨r', h1, h2⟩ := ih.1 x hx
        exact ⟨r', by simp [h1], h2⟩
      · intro x hx
        simp only [List.mem_append, List.mem_singleton] at hx
        rcases hx with hx | rfl
        · obtain ⟨r', h1, h2⟩ := ih.2 x hx
          exact ⟨r', by simp [h1], h2⟩
        · exact ⟨r, by simp, rfl⟩

theorem process_mem' {rules : List Rule} : ∀ r ∈ rules,
    (∃ x ∈ (process rules).breaking, x.1 = r.breaks) ∨ r.breaks ∈ (process rules).nonBreaking := by
  induction rules using List.reverseRecOn with
  | nil => simp
  | append_singleton l r ih =>
    intro r' hr'
    rw [process_append, Rules.add]
    simp only [List.mem_append, List.mem_singleton] at hr'
    split
    · rcases hr' with h | rfl
      · rcases ih r' h with ⟨x, hx, e⟩ | h
        · exact Or.inl ⟨x, by simp [hx], e⟩
        · exact Or.inr h
      · exact Or.inl ⟨(r'.breaks, (process l).nonBreaking.length), by simp, rfl⟩
    · rcases hr' with h | rfl
      · rcases ih r' h with h | h
        · exact Or.inl h
        · exact Or.inr (by simp [h])
      · exact Or.inr (by simp)

theorem process_count {rules : List Rule} : ∀ x ∈ (process rules).breaking, x.2 ≤ (process rules).nonBreaking.length := by
  induction rules using List.reverseRecOn with
  | nil => simp [process]
  | append_singleton l r ih =>
    rw [process_append, Rules.add]
    intro x hx
    split at hx
    · rename_i hb
      rw [if_pos hb]
      simp only [List.mem_append, List.mem_singleton] at hx
      rcases hx with hx | rfl
      · exact ih x hx
      · exact Nat.le_refl _
    · rename_i hb
      rw [if_neg hb]
      have := ih x hx
      simp
      omega

theorem breakAt_append (rules : List Rule) (r : Rule) (p : Nat) :
    BreakAt (rules ++ [r]) p ↔ BreakAt rules p ∨ (r.breaking = true ∧ r.Matches p ∧ ∀ x ∈ rules, ¬ x.Matches p) := by
  constructor
  · rintro ⟨l, x, l', e, h1, h2, h3⟩
    rcases List.eq_nil_or_concat l' with rfl | ⟨l'', y, rfl⟩
    · have := List.append_inj' e rfl
      simp at this
      obtain ⟨rfl, rfl⟩ := this
      exact Or.inr ⟨h1, h2, h3⟩
    · left
      have e' : rules ++ [r] = (l ++ x :: l'') ++ [y] := by simp [e]
      have := List.append_inj' e' rfl
      exact ⟨l, x, l'', this.1, h1, h2, h3⟩
  · rintro (⟨l, x, l', e, h1, h2, h3⟩ | ⟨h1, h2, h3⟩)
    · exact ⟨l, x, l' ++ [r], by simp [e], h1, h2, h3⟩
    · exact ⟨rules, r, [], rfl, h1, h2, h3⟩

theorem verdict_iff (rules : List Rule) (p : Nat) : Verdict (process rules) p ↔ BreakAt rules p := by
  induction rules using List.reverseRecOn with
  | nil => simp [Verdict, BreakAt, process]
  | append_singleton l r ih =>
    rw [breakAt_append, process_append, Rules.add, ← ih]
    by_cases hb : r.breaking = true
    · rw [if_pos hb]
      constructor
      · rintro ⟨r1, b, k, r2, e, h1, h2, h3⟩
        simp only at e h3
        rcases List.eq_nil_or_concat r2 with rfl | ⟨r2', y, rfl⟩
        · have := List.append_inj' e rfl
          simp at this
          obtain ⟨rfl, rfl, rfl⟩ := this
          right
          refine ⟨hb, h1, ?_⟩
          rintro x hx ⟨m, hm⟩
          rcases process_mem' x hx with ⟨y, hy, e2⟩ | hy
          · exact h2 y hy m (by rw [e2]; exact hm)
          · exact h3 _ (by simpa using hy) m hm
        · left
          have e' : (process l).breaking ++ [(r.breaks, (process l).nonBreaking.length)] = (r1 ++ (b, k) :: r2') ++ [y] := by simp [e]
          have := List.append_inj' e' rfl
          exact ⟨r1, b, k, r2', this.1, h1, h2, h3⟩
      · rintro (⟨r1, b, k, r2, e, h1, h2, h3⟩ | ⟨_, h1, h2⟩)
        · exact ⟨r1, b, k, r2 ++ [(r.breaks, (process l).nonBreaking.length)], by simp [e], h1, h2, h3⟩
        · refine ⟨(process l).breaking, r.breaks, (process l).nonBreaking.length, [], rfl, h1, ?_, ?_⟩
          · intro x hx m hm
            obtain ⟨y, hy, e⟩ := process_mem.1 x hx
            exact h2 y hy ⟨m, by rw [e]; exact hm⟩
          · intro x hx m hm
            simp at hx
            obtain ⟨y, hy, e⟩ := process_mem.2 x hx
            exact h2 y hy ⟨m, by rw [e]; exact hm⟩
    · rw [if_neg hb]
      have hcount := process_count (rules := l)
      constructor
      · rintro ⟨r1, b, k, r2, e, h1, h2, h3⟩
        left
        refine ⟨r1, b, k, r2, e, h1, h2, ?_⟩
        have := hcount (b, k) (by simp only at e; rw [e]; simp)
        simp only at h3 this
        rw [List.take_append_of_le_length this] at h3
        exact h3
      · rintro (⟨r1, b, k, r2, e, h1, h2, h3⟩ | ⟨h, _⟩)
        · refine ⟨r1, b, k, r2, e, h1, h2, ?_⟩
          have := hcount (b, k) (by rw [e]; simp)
          simp only at this ⊢
          rw [List.take_append_of_le_length this]
          exact h3
        · exact absurd h hb

theorem fresh_invs {ex : Prop} {text : Str} (hw : Spec.WellFormed text) (R : Rules) : Invs ex text R 0 (Apps.fresh R) := by
  constructor
  · simp only [Apps.fresh]
    induction R.breaking with
    | nil => exact .nil
    | cons r l ih => exact .cons (Inv.fresh hw) ih
  · simp only [Apps.fresh]
    induction R.nonBreaking with
    | nil => exact .nil
    | cons r l ih => exact .cons (Inv.fresh hw) ih

end Verif.Srx
