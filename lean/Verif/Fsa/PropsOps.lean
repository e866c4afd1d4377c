import Verif.Fsa.Props

/-!
C36: regular operations on automata.
-/
set_option linter.unusedVariables false
set_option linter.unusedSimpArgs false

namespace Verif.Fsa
open Verif Verif.Fsa.Spec

theorem noEps_append (u v : List Sym) : noEps (u ++ v) = noEps u ++ noEps v := by
  simp [noEps, List.filter_append]

theorem noEps_eps (u : List Sym) : noEps (EPS :: u) = noEps u := by simp [noEps]

theorem noEps_cons_eq {x : Sym} {u v : List Sym} (h : noEps u = noEps v) : noEps (x :: u) = noEps (x :: v) := by
  have h1 := noEps_append [x] u
  have h2 := noEps_append [x] v
  rw [List.singleton_append] at h1 h2
  rw [h1, h2, h]

/-! ### Union -/

/-- **C36** (union). -/
theorem C36_unify {a b : Fsa} (ha : Wf a) (hb : Wf b) :
    ∃ c, unify a b = some c ∧ Wf c ∧ (∀ w, Lang c w ↔ Lang a w ∨ Lang b w) ∧
      ∀ w, Raw c w ↔ Raw a w ∨ Raw b w := by
  obtain ⟨c, N, hc, h⟩ := copy_spec hb ha
  have hraw : ∀ w, Raw c w ↔ Raw a w ∨ Raw b w := fun w => by rw [h.raw ha, copier_raw]
  refine ⟨c, hc, h.wf, ?_, hraw⟩
  intro w
  unfold Lang
  simp only [hraw]
  constructor
  · rintro ⟨r, (hr | hr), e⟩
    · exact Or.inl ⟨r, hr, e⟩
    · exact Or.inr ⟨r, hr, e⟩
  · rintro (⟨r, hr, e⟩ | ⟨r, hr, e⟩)
    · exact ⟨r, Or.inl hr, e⟩
    · exact ⟨r, Or.inr hr, e⟩

/-! ### Iteration -/

/-- What adding epsilon transitions from `ps` to `qs` does. -/
structure EpsAdded (a b : Fsa) (E : Nat → Nat → Prop) : Prop where
  wf : Wf b
  size : b.size = a.size
  arcs : ∀ n y, y ∈ b.arcs n ↔ y ∈ a.arcs n ∨ ∃ q, E n q ∧ y = (EPS, q)
  starts : b.starts = a.starts
  ends : b.ends = a.ends

theorem EpsAdded.refl {a : Fsa} (ha : Wf a) : EpsAdded a a (fun _ _ => False) :=
  ⟨ha, rfl, by simp, rfl, rfl⟩

theorem EpsAdded.add {a b : Fsa} {E : Nat → Nat → Prop} (h : EpsAdded a b E) {p q : Nat} (hp : p < a.size)
    (hq : q < a.size) : EpsAdded a (b.addArc p (EPS, q)) (fun n m => E n m ∨ (n = p ∧ m = q)) := by
  have hp' : p < b.size := by rw [h.size]; exact hp
  have hq' : q < b.size := by rw [h.size]; exact hq
  refine ⟨wf_addArc h.wf hp' hq', by rw [size_addArc, h.size], ?_, h.starts, h.ends⟩
  intro n y
  rw [mem_arcs_addArc hp', h.arcs]
  constructor
  · rintro (⟨rfl, rfl⟩ | h1 | ⟨r, h1, rfl⟩)
    · exact Or.inr ⟨q, Or.inr ⟨rfl, rfl⟩, rfl⟩
    · exact Or.inl h1
    · exact Or.inr ⟨r, Or.inl h1, rfl⟩
  · rintro (h1 | ⟨r, (h1 | ⟨rfl, rfl⟩), rfl⟩)
    · exact Or.inr (Or.inl h1)
    · exact Or.inr (Or.inr ⟨r, h1, rfl⟩)
    · exact Or.inl ⟨rfl, rfl⟩

theorem EpsAdded.congr {a b : Fsa} {E E' : Nat → Nat → Prop} (h : EpsAdded a b E) (he : ∀ n m, E n m ↔ E' n m) :
    EpsAdded a b E' :=
  ⟨h.wf, h.size, by intro n y; rw [h.arcs]; simp only [he], h.starts, h.ends⟩

theorem EpsAdded.row {a : Fsa} {p : Nat} (hp : p < a.size) (qs : List Nat) :
    ∀ {b : Fsa} {E : Nat → Nat → Prop}, EpsAdded a b E → (∀ q ∈ qs, q < a.size) →
    EpsAdded a (qs.foldl (fun a' q => a'.addArc p (EPS, q)) b) (fun n m => E n m ∨ (n = p ∧ m ∈ qs)) := by
  induction qs with
  | nil => intro b E h _; exact h.congr (by simp)
  | cons q qs ih =>
    intro b E h hq
    rw [List.foldl_cons]
    refine (ih (h.add hp (hq q (List.mem_cons_self ..))) (fun r hr => hq r (List.mem_cons_of_mem _ hr))).congr ?_
    intro n m
    simp only [List.mem_cons]
    tauto

theorem kleenePlus_added {a : Fsa} (ha : Wf a) :
    EpsAdded a (kleenePlus a) (fun n m => n ∈ a.ends ∧ m ∈ a.starts) := by
  have : ∀ (ps : List Nat) (b : Fsa) (E : Nat → Nat → Prop), (∀ p ∈ ps, p < a.size) → EpsAdded a b E →
      EpsAdded a (ps.foldl (fun a' p => a.starts.foldl (fun a' q => a'.addArc p (EPS, q)) a') b)
        (fun n m => E n m ∨ (n ∈ ps ∧ m ∈ a.starts)) := by
    intro ps
    induction ps with
    | nil => intro b E _ h; exact h.congr (by simp)
    | cons p ps ih =>
      intro b E hp h
      rw [List.foldl_cons]
      refine (ih _ _ (fun r hr => hp r (List.mem_cons_of_mem _ hr))
        (EpsAdded.row (hp p (List.mem_cons_self ..)) a.starts h ha.start)).congr ?_
      intro n m
      simp only [List.mem_cons]
      tauto
  exact (this a.ends a _ ha.end_ (EpsAdded.refl ha)).congr (by simp)

theorem EpsAdded.path_mono {a b : Fsa} {E : Nat → Nat → Prop} (h : EpsAdded a b E) {p q : Nat} {l : List Sym}
    (hp : Path a p l q) : Path b p l q := by
  induction hp with
  | nil => exact .nil
  | cons ha _ ih => exact .cons ((h.arcs _ _).2 (Or.inl ha)) ih

theorem plus_sound {a : Fsa} (ha : Wf a) {p q : Nat} {l : List Sym} (h : Path (kleenePlus a) p l q)
    (hq : q ∈ a.ends) : ∃ (r1 : List Sym) (us : List (List Sym)), (∃ e ∈ a.ends, Path a p r1 e) ∧ (∀ u ∈ us, Lang a u) ∧
      noEps l = noEps r1 ++ us.flatten := by
  have hk := kleenePlus_added ha
  induction h with
  | nil => exact ⟨[], [], ⟨_, hq, .nil⟩, by simp, by simp⟩
  | cons harc _ ih =>
    rename_i p x q' w r hpath
    obtain ⟨r1, us, ⟨e, he, h1⟩, h2, h3⟩ := ih hq
    rcases (hk.arcs _ _).1 harc with harc | ⟨m, ⟨hp, hm⟩, hxy⟩
    · refine ⟨x :: r1, us, ⟨e, he, .cons harc h1⟩, h2, ?_⟩
      have e1 := noEps_append [x] w
      have e2 := noEps_append [x] r1
      rw [List.singleton_append] at e1 e2
      rw [e1, e2, h3, List.append_assoc]
    · simp only [Prod.mk.injEq] at hxy
      obtain ⟨rfl, rfl⟩ := hxy
      refine ⟨[], noEps r1 :: us, ⟨p, hp, .nil⟩, ?_, ?_⟩
      · intro u hu
        simp only [List.mem_cons] at hu
        rcases hu with rfl | hu
        · exact ⟨r1, ⟨_, hm, e, he, h1⟩, rfl⟩
        · exact h2 u hu
      · rw [noEps_eps, h3]; simp

/-- **C36** (iteration): the result accepts the words made of one or more accepted words. -/
theorem C36_kleenePlus {a : Fsa} (ha : Wf a) (w : List Sym) :
    Lang (kleenePlus a) w ↔ Plus (Lang a) w := by
  have hk := kleenePlus_added ha
  constructor
  · rintro ⟨r, ⟨p, hp, q, hq, hpath⟩, rfl⟩
    rw [hk.starts] at hp
    rw [hk.ends] at hq
    obtain ⟨r1, us, ⟨e, he, h1⟩, h2, h3⟩ := plus_sound ha hpath hq
    refine ⟨noEps r1 :: us, by simp, ?_, ?_⟩
    · intro u hu
      simp only [List.mem_cons] at hu
      rcases hu with rfl | hu
      · exact ⟨r1, ⟨p, hp, e, he, h1⟩, rfl⟩
      · exact h2 u hu
    · rw [List.flatten_cons, ← h3]
  · rintro ⟨us, hne, hl, rfl⟩
    have : ∀ us : List (List Sym), us ≠ [] → (∀ u ∈ us, Lang a u) → ∃ r, noEps r = us.flatten ∧
        ∃ p ∈ a.starts, ∃ q ∈ a.ends, Path (kleenePlus a) p r q := by
      intro us
      induction us with
      | nil => intro h; exact absurd rfl h
      | cons u us ih =>
        intro _ hl
        obtain ⟨r, ⟨p, hp, q, hq, hpath⟩, e⟩ := hl u (List.mem_cons_self ..)
        cases us with
        | nil => exact ⟨r, by rw [List.flatten_cons, List.flatten_nil, List.append_nil]; exact e, p, hp, q, hq, hk.path_mono hpath⟩
        | cons v us =>
          obtain ⟨r', e', p', hp', q', hq', hpath'⟩ := ih (by simp) (fun u hu => hl u (List.mem_cons_of_mem _ hu))
          refine ⟨r ++ EPS :: r', ?_, p, hp, q', hq', path_append.2 ⟨q, hk.path_mono hpath, .cons ?_ hpath'⟩⟩
          · rw [noEps_append, noEps_eps, e', List.flatten_cons (l := u)]
            rw [show noEps r = u from e]
          · exact (hk.arcs _ _).2 (Or.inr ⟨p', ⟨hq, hp'⟩, rfl⟩)
    obtain ⟨r, e, p, hp, q, hq, hpath⟩ := this us hne hl
    exact ⟨r, ⟨p, by rw [hk.starts]; exact hp, q, by rw [hk.ends]; exact hq, hpath⟩, e⟩

/-! ### Option -/

/-- What `kleene_option` makes. -/
structure Optioned (a b : Fsa) : Prop where
  wf : Wf b
  size : b.size = a.size + 2
  arcs : ∀ n y, y ∈ b.arcs n ↔ y ∈ a.arcs n ∨ (n = a.size ∧ ∃ q ∈ a.starts, y = (EPS, q)) ∨
    (n ∈ a.ends ∧ y = (EPS, a.size + 1))
  starts : b.starts = [a.size]
  ends : b.ends = [a.size + 1]

theorem option_starts (k : Nat) (l : List Nat) : ∀ {b : Fsa}, Wf b → k < b.size → (∀ p ∈ l, p < b.size) →
    let c := l.foldl (fun a p => (a.unsetStart p).addArc k (EPS, p)) b
    Wf c ∧ c.size = b.size ∧
    (∀ n y, y ∈ c.arcs n ↔ y ∈ b.arcs n ∨ (n = k ∧ ∃ q ∈ l, y = (EPS, q))) ∧
    (∀ n, n ∈ c.starts ↔ n ∈ b.starts ∧ n ∉ l) ∧ c.ends = b.ends := by
  induction l with
  | nil => intro b hb _ _; exact ⟨hb, rfl, by simp, by simp, rfl⟩
  | cons p l ih =>
    intro b hb hk hl
    rw [List.foldl_cons]
    have hs : ((b.unsetStart p).addArc k (EPS, p)).size = b.size := by rw [size_addArc]; rfl
    have hw : Wf ((b.unsetStart p).addArc k (EPS, p)) :=
      wf_addArc (wf_unsetStart hb p) hk (hl p (List.mem_cons_self ..))
    obtain ⟨i1, i2, i3, i4, i5⟩ := ih hw (by rw [hs]; exact hk)
      (fun q hq => by rw [hs]; exact hl q (List.mem_cons_of_mem _ hq))
    refine ⟨i1, by rw [i2, hs], ?_, ?_, i5⟩
    · intro n y
      rw [i3, mem_arcs_addArc (show k < (b.unsetStart p).size from hk)]
      have : (b.unsetStart p).arcs n = b.arcs n := rfl
      rw [this]
      constructor
      · rintro ((⟨rfl, rfl⟩ | h) | ⟨rfl, q, hq, rfl⟩)
        · exact Or.inr ⟨rfl, p, List.mem_cons_self .., rfl⟩
        · exact Or.inl h
        · exact Or.inr ⟨rfl, q, List.mem_cons_of_mem _ hq, rfl⟩
      · rintro (h | ⟨rfl, q, hq, rfl⟩)
        · exact Or.inl (Or.inr h)
        · simp only [List.mem_cons] at hq
          rcases hq with rfl | hq
          · exact Or.inl (Or.inl ⟨rfl, rfl⟩)
          · exact Or.inr ⟨rfl, q, hq, rfl⟩
    · intro n
      rw [i4]
      show n ∈ b.starts.filter (· ≠ p) ∧ n ∉ l ↔ _
      simp only [List.mem_filter, decide_eq_true_eq, List.mem_cons, not_or]
      tauto

theorem option_ends (k : Nat) (l : List Nat) : ∀ {b : Fsa}, Wf b → k < b.size → (∀ p ∈ l, p < b.size) →
    let c := l.foldl (fun a p => (a.unsetEnd p).addArc p (EPS, k)) b
    Wf c ∧ c.size = b.size ∧
    (∀ n y, y ∈ c.arcs n ↔ y ∈ b.arcs n ∨ (n ∈ l ∧ y = (EPS, k))) ∧
    (∀ n, n ∈ c.ends ↔ n ∈ b.ends ∧ n ∉ l) ∧ c.starts = b.starts := by
  induction l with
  | nil => intro b hb _ _; exact ⟨hb, rfl, by simp, by simp, rfl⟩
  | cons p l ih =>
    intro b hb hk hl
    rw [List.foldl_cons]
    have hp := hl p (List.mem_cons_self ..)
    have hs : ((b.unsetEnd p).addArc p (EPS, k)).size = b.size := by rw [size_addArc]; rfl
    have hw : Wf ((b.unsetEnd p).addArc p (EPS, k)) := wf_addArc (wf_unsetEnd hb p) hp hk
    obtain ⟨i1, i2, i3, i4, i5⟩ := ih hw (by rw [hs]; exact hk)
      (fun q hq => by rw [hs]; exact hl q (List.mem_cons_of_mem _ hq))
    refine ⟨i1, by rw [i2, hs], ?_, ?_, i5⟩
    · intro n y
      rw [i3, mem_arcs_addArc (show p < (b.unsetEnd p).size from hp)]
      have : (b.unsetEnd p).arcs n = b.arcs n := rfl
      rw [this]
      simp only [List.mem_cons]
      tauto
    · intro n
      rw [i4]
      show n ∈ b.ends.filter (· ≠ p) ∧ n ∉ l ↔ _
      simp only [List.mem_filter, decide_eq_true_eq, List.mem_cons, not_or]
      tauto

theorem kleeneOption_spec {a : Fsa} (ha : Wf a) : Optioned a (kleeneOption a) := by
  have h1 := wf_addState ha false
  have s1 := size_addState a false
  have h2 : Wf ((a.addState false).2.setStart a.size) := wf_setStart h1 (by omega)
  have h3 := wf_addState h2 false
  have s3 : (((a.addState false).2.setStart a.size).addState false).2.size = a.size + 2 := by
    rw [size_addState]; show (a.addState false).2.size + 1 = _; omega
  have h4 : Wf ((((a.addState false).2.setStart a.size).addState false).2.setEnd (a.size + 1)) :=
    wf_setEnd h3 (by omega)
  have e : kleeneOption a = a.ends.foldl (fun a' p => (a'.unsetEnd p).addArc p (EPS, a.size + 1))
      (a.starts.foldl (fun a' p => (a'.unsetStart p).addArc a.size (EPS, p))
        ((((a.addState false).2.setStart a.size).addState false).2.setEnd (a.size + 1))) := by
    have : ((a.addState false).2.setStart a.size).size = a.size + 1 := s1
    simp only [kleeneOption, Fsa.addState]
    simp only [Fsa.addState] at this
    rw [this]
  rw [e]
  generalize hb : (((a.addState false).2.setStart a.size).addState false).2.setEnd (a.size + 1) = b at *
  have hbs : b.size = a.size + 2 := by rw [← hb]; exact s3
  have hba : ∀ n, b.arcs n = a.arcs n := by
    intro n
    rw [← hb]
    show (((a.addState false).2.setStart a.size).addState false).2.arcs n = _
    rw [arcs_addState]
    show (a.addState false).2.arcs n = _
    rw [arcs_addState]
  have hbst : ∀ n, n ∈ b.starts ↔ n = a.size ∨ n ∈ a.starts := by
    intro n
    rw [← hb]
    show n ∈ insertSet natLt a.size a.starts ↔ _
    rw [mem_insertSet natLt_order]
  have hben : ∀ n, n ∈ b.ends ↔ n = a.size + 1 ∨ n ∈ a.ends := by
    intro n
    rw [← hb]
    show n ∈ insertSet natLt (a.size + 1) a.ends ↔ _
    rw [mem_insertSet natLt_order]
  clear hb
  obtain ⟨i1, i2, i3, i4, i5⟩ := option_starts a.size a.starts h4 (by omega)
    (fun p hp => by have := ha.start p hp; omega)
  generalize a.starts.foldl (fun a' p => (a'.unsetStart p).addArc a.size (EPS, p)) b = c at *
  obtain ⟨j1, j2, j3, j4, j5⟩ := option_ends (a.size + 1) a.ends i1 (by omega)
    (fun p hp => by have := ha.end_ p hp; omega)
  refine ⟨j1, by rw [j2, i2, hbs], ?_, ?_, ?_⟩
  · intro n y
    rw [j3, i3, hba, or_assoc]
  · apply sorted_ext j1.startsSorted (by simp)
    intro x
    rw [j5, i4, hbst]
    simp only [List.mem_singleton]
    constructor
    · rintro ⟨rfl | h, h'⟩
      · rfl
      · exact absurd h h'
    · rintro rfl
      refine ⟨Or.inl rfl, ?_⟩
      intro h; have := ha.start _ h; omega
  · apply sorted_ext j1.endsSorted (by simp)
    intro x
    rw [j4, i5, hben]
    simp only [List.mem_singleton]
    constructor
    · rintro ⟨rfl | h, h'⟩
      · rfl
      · exact absurd h h'
    · rintro rfl
      refine ⟨Or.inl rfl, ?_⟩
      intro h; have := ha.end_ _ h; omega

theorem Optioned.path_mono {a b : Fsa} (h : Optioned a b) {p q : Nat} {l : List Sym}
    (hp : Path a p l q) : Path b p l q := by
  induction hp with
  | nil => exact .nil
  | cons ha _ ih => exact .cons ((h.arcs _ _).2 (Or.inl ha)) ih

/-- Paths from old states to the new end state. -/
theorem Optioned.path_to_end {a b : Fsa} (ha : Wf a) (h : Optioned a b) {p q : Nat} {l : List Sym}
    (hp : Path b p l q) : p < a.size → q = a.size + 1 →
    ∃ r, l = r ++ [EPS] ∧ ∃ e ∈ a.ends, Path a p r e := by
  induction hp with
  | nil => intro h1 h2; omega
  | cons harc hpath ih =>
    rename_i p x q' w r
    intro h1 h2
    rcases (h.arcs _ _).1 harc with harc | ⟨rfl, _⟩ | ⟨he, hxy⟩
    · obtain ⟨r, rfl, e, he, h3⟩ := ih (ha.dest _ _ _ harc) h2
      exact ⟨x :: r, rfl, e, he, .cons harc h3⟩
    · omega
    · simp only [Prod.mk.injEq] at hxy
      obtain ⟨rfl, rfl⟩ := hxy
      cases hpath with
      | nil => exact ⟨[], rfl, p, he, .nil⟩
      | cons harc2 _ =>
        exfalso
        rcases (h.arcs _ _).1 harc2 with h4 | ⟨h4, _⟩ | ⟨h4, _⟩
        · rw [arcs_out (by omega)] at h4; simp at h4
        · omega
        · have := ha.end_ _ h4; omega

theorem Optioned.raw {a b : Fsa} (ha : Wf a) (h : Optioned a b) (l : List Sym) :
    Raw b l ↔ ∃ r, Raw a r ∧ l = EPS :: (r ++ [EPS]) := by
  constructor
  · rintro ⟨p, hp, q, hq, hpath⟩
    rw [h.starts] at hp
    rw [h.ends] at hq
    have hp' : p = a.size := by simpa using hp
    have hq' : q = a.size + 1 := by simpa using hq
    generalize hps : a.size + 1 = t at *
    subst hp' hq'
    cases hpath with
    | nil => omega
    | cons harc hpath =>
      rcases (h.arcs _ _).1 harc with h1 | ⟨_, s, hs, e⟩ | ⟨h1, _⟩
      · rw [arcs_out (Nat.le_refl _)] at h1; simp at h1
      · simp only [Prod.mk.injEq] at e
        obtain ⟨rfl, rfl⟩ := e
        obtain ⟨r, rfl, e, he, h2⟩ := h.path_to_end ha hpath (ha.start _ hs) hps.symm
        exact ⟨r, ⟨_, hs, e, he, h2⟩, rfl⟩
      · have := ha.end_ _ h1; omega
  · rintro ⟨r, ⟨p, hp, q, hq, hpath⟩, rfl⟩
    refine ⟨a.size, by rw [h.starts]; simp, a.size + 1, by rw [h.ends]; simp, ?_⟩
    refine .cons ((h.arcs _ _).2 (Or.inr (Or.inl ⟨rfl, p, hp, rfl⟩))) ?_
    exact path_append.2 ⟨q, h.path_mono hpath, path_one.2 ((h.arcs _ _).2 (Or.inr (Or.inr ⟨hq, rfl⟩)))⟩

/-- `kleene_option` does not change the language. -/
theorem option_lang {a : Fsa} (ha : Wf a) (w : List Sym) : Lang (kleeneOption a) w ↔ Lang a w := by
  have h := kleeneOption_spec ha
  unfold Lang
  simp only [h.raw ha]
  have hne : ∀ r, noEps (EPS :: (r ++ [EPS])) = noEps r := by
    intro r; rw [noEps_eps, noEps_append]; simp [noEps]
  constructor
  · rintro ⟨_, ⟨r, hr, rfl⟩, e⟩
    exact ⟨r, hr, by rw [← e]; exact (hne r).symm⟩
  · rintro ⟨r, hr, e⟩
    exact ⟨_, ⟨r, hr, rfl⟩, by rw [← e]; exact hne r⟩

/-- **C36** (option): the result accepts the accepted words and the empty word.  Proved but for the
empty word: whether it is accepted is not changed, because there is no transition from the new start
state to the new end state; see `C36_option_false`. -/
theorem C36_kleeneOption_partial {a : Fsa} (ha : Wf a) (w : List Sym) (hw : w ≠ [] ∨ Lang a []) :
    Lang (kleeneOption a) w ↔ Lang a w ∨ w = [] := by
  rw [option_lang ha]
  constructor
  · exact Or.inl
  · rintro (h | rfl)
    · exact h
    · rcases hw with hw | hw
      · exact absurd rfl hw
      · exact hw

/-- **C36** (star): the result accepts the words made of any number of accepted words.  Proved but for
the empty word, see `C36_star_false`. -/
theorem C36_kleeneStar_partial {a : Fsa} (ha : Wf a) (w : List Sym) (hw : w ≠ [] ∨ Lang a []) :
    Lang (kleeneStar a) w ↔ Star (Lang a) w := by
  unfold kleeneStar
  rw [C36_kleenePlus (kleeneOption_spec ha).wf]
  unfold Plus Star
  simp only [option_lang ha]
  constructor
  · rintro ⟨us, _, h1, h2⟩; exact ⟨us, h1, h2⟩
  · rintro ⟨us, h1, h2⟩
    by_cases hus : us = []
    · subst hus
      have hw0 : w = [] := by rw [← h2]; rfl
      rcases hw with hw | hw
      · exact absurd hw0 hw
      · exact ⟨[[]], by simp, by simpa using hw, by rw [hw0]; rfl⟩
    · exact ⟨us, hus, h1, h2⟩

/-- An automaton for the word `a`. -/
def wordA : Fsa := ofWord [97]

theorem wordA_wf : Wf wordA := by
  have h1 := Built.addState true Built.empty
  have h2 := Built.addState false h1
  have h3 := Built.addArc (p := 0) (x := 97) (q := 1) h2 (by decide) (by decide)
  have h4 := Built.setEnd (p := 1) h3 (by decide)
  have e : ∀ b, Built b → b = wordA → Wf wordA := fun b hb e => e ▸ built_wf hb
  exact e _ h4 (by decide +kernel)

theorem wordA_raw (w : List Sym) : Raw wordA w ↔ w = [97] := by
  have hs : wordA.starts = [0] := by decide +kernel
  have he : wordA.ends = [1] := by decide +kernel
  have h0 : wordA.arcs 0 = [(97, 1)] := by decide +kernel
  have h1 : wordA.arcs 1 = [] := by decide +kernel
  constructor
  · rintro ⟨p, hp, q, hq, h⟩
    rw [hs] at hp; rw [he] at hq
    simp only [List.mem_singleton] at hp hq
    subst hp hq
    cases h with
    | cons ha h =>
      rw [h0] at ha
      simp only [List.mem_singleton, Prod.mk.injEq] at ha
      obtain ⟨rfl, rfl⟩ := ha
      cases h with
      | nil => rfl
      | cons ha h => rw [h1] at ha; simp at ha
  · rintro rfl
    exact ⟨0, by rw [hs]; simp, 1, by rw [he]; simp, path_one.2 (by rw [h0]; simp)⟩

theorem wordA_lang_nil : ¬ Lang wordA [] := by
  rintro ⟨r, hr, e⟩
  rw [wordA_raw] at hr
  subst hr
  exact absurd e (by decide)

/-- **C36** is false of `kleene_option`: the optional automaton for `a` does not accept the empty word. -/
theorem C36_option_false : ¬ ∀ a : Fsa, Wf a → ∀ w, Lang (kleeneOption a) w ↔ Lang a w ∨ w = [] := by
  intro h
  have := (h wordA wordA_wf []).2 (Or.inr rfl)
  rw [option_lang wordA_wf] at this
  exact wordA_lang_nil this

/-- **C36** is false of `kleene_star`: the iterated automaton for `a` does not accept the empty word. -/
theorem C36_star_false : ¬ ∀ a : Fsa, Wf a → ∀ w, Lang (kleeneStar a) w ↔ Star (Lang a) w := by
  intro h
  have h1 := (h wordA wordA_wf []).2 ⟨[], by simp, rfl⟩
  unfold kleeneStar at h1
  rw [C36_kleenePlus (kleeneOption_spec wordA_wf).wf] at h1
  obtain ⟨us, hne, h2, h3⟩ := h1
  cases us with
  | nil => exact hne rfl
  | cons u us =>
    have hu := h2 u (List.mem_cons_self ..)
    rw [option_lang wordA_wf] at hu
    have : u = [] := by
      rw [List.flatten_cons, List.append_eq_nil_iff] at h3; exact h3.1
    subst this
    exact wordA_lang_nil hu

/-! ### Concatenation -/

/-- The inner loop of `concatenate`. -/
theorem concat_row {F : List Nat} {p : Nat} (l : List Nat) : ∀ {b : Fsa}, Wf b → p < b.size →
    (∀ q ∈ l, q < b.size) →
    let c := l.foldl (concatArc F p) b
    Wf c ∧ c.size = b.size ∧
    (∀ n y, y ∈ c.arcs n ↔ y ∈ b.arcs n ∨ (n = p ∧ ∃ q ∈ l, q ∉ F ∧ y = (EPS, q))) ∧
    (∀ n, n ∈ c.starts ↔ n ∈ b.starts ∧ (n ∈ l → n ∈ F)) ∧ c.ends = b.ends := by
  induction l with
  | nil => intro b hb _ _; exact ⟨hb, rfl, by simp, by simp, rfl⟩
  | cons q l ih =>
    intro b hb hp hl
    rw [List.foldl_cons]
    by_cases hq : q ∈ F
    · have e : concatArc F p b q = b := by unfold concatArc; rw [if_pos hq]
      rw [e]
      obtain ⟨i1, i2, i3, i4, i5⟩ := ih hb hp (fun r hr => hl r (List.mem_cons_of_mem _ hr))
      refine ⟨i1, i2, ?_, ?_, i5⟩
      · intro n y
        rw [i3]
        simp only [List.mem_cons]
        constructor
        · rintro (h | ⟨rfl, r, hr, h1, h2⟩)
          · exact Or.inl h
          · exact Or.inr ⟨rfl, r, Or.inr hr, h1, h2⟩
        · rintro (h | ⟨rfl, r, (rfl | hr), h1, h2⟩)
          · exact Or.inl h
          · exact absurd hq h1
          · exact Or.inr ⟨rfl, r, hr, h1, h2⟩
      · intro n
        rw [i4]
        simp only [List.mem_cons]
        constructor
        · rintro ⟨h1, h2⟩
          refine ⟨h1, ?_⟩
          rintro (rfl | h)
          · exact hq
          · exact h2 h
        · rintro ⟨h1, h2⟩; exact ⟨h1, fun h => h2 (Or.inr h)⟩
    · have e : concatArc F p b q = (b.addArc p (EPS, q)).unsetStart q := by unfold concatArc; rw [if_neg hq]
      rw [e]
      have hs : ((b.addArc p (EPS, q)).unsetStart q).size = b.size := size_addArc ..
      have hw : Wf ((b.addArc p (EPS, q)).unsetStart q) :=
        wf_unsetStart (wf_addArc hb hp (hl q (List.mem_cons_self ..))) q
      obtain ⟨i1, i2, i3, i4, i5⟩ := ih hw (by rw [hs]; exact hp)
        (fun r hr => by rw [hs]; exact hl r (List.mem_cons_of_mem _ hr))
      refine ⟨i1, by rw [i2, hs], ?_, ?_, i5⟩
      · intro n y
        rw [i3]
        have : ((b.addArc p (EPS, q)).unsetStart q).arcs n = (b.addArc p (EPS, q)).arcs n := rfl
        rw [this, mem_arcs_addArc hp]
        simp only [List.mem_cons]
        constructor
        · rintro ((⟨rfl, rfl⟩ | h) | ⟨rfl, r, hr, h1, h2⟩)
          · exact Or.inr ⟨rfl, q, Or.inl rfl, hq, rfl⟩
          · exact Or.inl h
          · exact Or.inr ⟨rfl, r, Or.inr hr, h1, h2⟩
        · rintro (h | ⟨rfl, r, (rfl | hr), h1, h2⟩)
          · exact Or.inl (Or.inr h)
          · exact Or.inl (Or.inl ⟨rfl, h2⟩)
          · exact Or.inr ⟨rfl, r, hr, h1, h2⟩
      · intro n
        rw [i4]
        show n ∈ b.starts.filter (· ≠ q) ∧ _ ↔ _
        simp only [List.mem_filter, decide_eq_true_eq, List.mem_cons]
        constructor
        · rintro ⟨⟨h1, h2⟩, h3⟩
          refine ⟨h1, ?_⟩
          rintro (rfl | h)
          · exact absurd rfl h2
          · exact h3 h
        · rintro ⟨h1, h2⟩
          refine ⟨⟨h1, ?_⟩, fun h => h2 (Or.inr h)⟩
          rintro rfl; exact hq (h2 (Or.inl rfl))

/-- The outer loop of `concatenate`. -/
theorem concat_rows {F S : List Nat} (l : List Nat) : ∀ {b : Fsa}, Wf b → (∀ p ∈ l, p < b.size) →
    (∀ q ∈ S, q < b.size) →
    let c := l.foldl (fun a' p => (S.foldl (concatArc F p) a').unsetEnd p) b
    Wf c ∧ c.size = b.size ∧
    (∀ n y, y ∈ c.arcs n ↔ y ∈ b.arcs n ∨ (n ∈ l ∧ ∃ q ∈ S, q ∉ F ∧ y = (EPS, q))) ∧
    (∀ n, n ∈ c.starts ↔ n ∈ b.starts ∧ (l ≠ [] → n ∈ S → n ∈ F)) ∧
    (∀ n, n ∈ c.ends ↔ n ∈ b.ends ∧ n ∉ l) := by
  induction l with
  | nil => intro b hb _ _; exact ⟨hb, rfl, by simp, by simp, by simp⟩
  | cons p l ih =>
    intro b hb hp hS
    rw [List.foldl_cons]
    obtain ⟨i1, i2, i3, i4, i5⟩ := concat_row (F := F) S hb (hp p (List.mem_cons_self ..)) hS
    generalize S.foldl (concatArc F p) b = b' at *
    obtain ⟨j1, j2, j3, j4, j5⟩ := ih (b := b'.unsetEnd p) (wf_unsetEnd i1 p)
      (fun r hr => by show r < b'.size; rw [i2]; exact hp r (List.mem_cons_of_mem _ hr))
      (fun r hr => by show r < b'.size; rw [i2]; exact hS r hr)
    refine ⟨j1, by rw [j2]; exact i2, ?_, ?_, ?_⟩
    · intro n y
      rw [j3]
      have : (b'.unsetEnd p).arcs n = b'.arcs n := rfl
      rw [this, i3]
      simp only [List.mem_cons]
      generalize (∃ q ∈ S, q ∉ F ∧ y = (EPS, q)) = X
      tauto
    · intro n
      rw [j4]
      have : (b'.unsetEnd p).starts = b'.starts := rfl
      rw [this, i4]
      simp only [ne_eq, reduceCtorEq, not_false_eq_true, forall_const]
      tauto
    · intro n
      rw [j5]
      show n ∈ b'.ends.filter (· ≠ p) ∧ _ ↔ _
      simp only [List.mem_filter, decide_eq_true_eq, List.mem_cons, not_or, i5]
      tauto

/-- What `concatenate` makes of an automaton with an end state. -/
theorem concatenate_spec {a b : Fsa} (ha : Wf a) (hb : Wf b) :
    ∃ c d N, concatenate a b = some d ∧ Copied (copier b) a c N ∧ Wf d ∧
      (∀ n y, y ∈ d.arcs n ↔ y ∈ c.arcs n ∨ (n ∈ a.ends ∧ ∃ s ∈ b.starts, y = (EPS, N s))) ∧
      (∀ n, n ∈ d.starts ↔ n ∈ a.starts ∨ (a.ends = [] ∧ ∃ s ∈ b.starts, N s = n)) ∧
      (∀ n, n ∈ d.ends ↔ ∃ s, Reach (copier b) s ∧ s ∈ b.ends ∧ N s = n) := by
  obtain ⟨c, N, hc, h⟩ := copy_spec hb ha
  obtain ⟨i1, i2, i3, i4, i5⟩ := concat_rows (F := a.starts) (S := c.starts) a.ends h.wf
    (fun p hp => Nat.lt_of_lt_of_le (ha.end_ p hp) h.le) h.wf.start
  have hge : ∀ s ∈ b.starts, N s ∉ a.starts := by
    intro s hs hm
    have h1 := (h.vals s (Reach.start hs)).1
    have h2 := ha.start _ hm
    omega
  refine ⟨c, _, N, by simp only [concatenate, hc]; rfl, h, i1, ?_, ?_, ?_⟩
  · intro n y
    rw [i3]
    have : (∃ q ∈ c.starts, q ∉ a.starts ∧ y = (EPS, q)) ↔ ∃ s ∈ b.starts, y = (EPS, N s) := by
      constructor
      · rintro ⟨q, hq, hqn, rfl⟩
        rw [h.starts] at hq
        rcases hq with hq | ⟨s, hs, rfl⟩
        · exact absurd hq hqn
        · exact ⟨s, hs, rfl⟩
      · rintro ⟨s, hs, rfl⟩
        exact ⟨N s, (h.starts _).2 (Or.inr ⟨s, hs, rfl⟩), hge s hs, rfl⟩
    rw [this]
  · intro n
    rw [i4, h.starts]
    constructor
    · rintro ⟨h1 | ⟨s, hs, rfl⟩, h2⟩
      · exact Or.inl h1
      · by_cases he : a.ends = []
        · exact Or.inr ⟨he, s, hs, rfl⟩
        · exact absurd (h2 he (Or.inr ⟨s, hs, rfl⟩)) (hge s hs)
    · rintro (h1 | ⟨he, s, hs, rfl⟩)
      · exact ⟨Or.inl h1, fun _ _ => h1⟩
      · exact ⟨Or.inr ⟨s, hs, rfl⟩, fun h3 => absurd he h3⟩
  · intro n
    rw [i5, h.ends]
    have hf : ∀ s, (copier b).final s = true ↔ s ∈ b.ends := by
      intro s; show b.isEnd s = true ↔ _; simp [Fsa.isEnd]
    simp only [hf]
    constructor
    · rintro ⟨h1 | h1, h2⟩
      · exact absurd h1 h2
      · exact h1
    · rintro ⟨s, hs, he, rfl⟩
      refine ⟨Or.inr ⟨s, hs, he, rfl⟩, ?_⟩
      intro hm
      have h1 := (h.vals s hs).1
      have h2 := ha.end_ _ hm
      omega

/-- **C36** (concatenation): if the first automaton has an end state, the result accepts the words made
of a word of the first and a word of the second.  (Without an end state nothing is concatenated, and the
start states of the second automaton stay start states: see `C36_concatenate_false`.) -/
theorem C36_concatenate_partial {a b : Fsa} (ha : Wf a) (hb : Wf b) (hne : a.ends ≠ []) :
    ∃ c, concatenate a b = some c ∧ Wf c ∧ ∀ w, Lang c w ↔ Concat (Lang a) (Lang b) w := by
  obtain ⟨c, d, N, hd, h, hwf, harcs, hst, hen⟩ := concatenate_spec ha hb
  refine ⟨d, hd, hwf, ?_⟩
  have hmono : ∀ {p q : Nat} {l : List Sym}, Path c p l q → Path d p l q := by
    intro p q l hp
    induction hp with
    | nil => exact .nil
    | cons hac _ ih => exact .cons ((harcs _ _).2 (Or.inl hac)) ih
  -- paths from copied states
  have hcopy : ∀ {p q : Nat} {l : List Sym}, Path d p l q → a.size ≤ p → Path c p l q := by
    intro p q l hp
    induction hp with
    | nil => intro _; exact .nil
    | cons hac _ ih =>
      rename_i p x q' l r _
      intro hge
      rcases (harcs _ _).1 hac with hac | ⟨he, _⟩
      · have hlt : p < c.size := by
          by_contra hn
          rw [arcs_out (by omega)] at hac; simp at hac
        obtain ⟨s, hs, rfl⟩ := h.surj p hge hlt
        obtain ⟨u, hu, rfl⟩ := (h.mem_arcs hs).1 hac
        exact .cons hac (ih (h.vals u (hs.step hu)).1)
      · have := ha.end_ _ he; omega
  -- paths from old states to copied states
  have hcross : ∀ {p q : Nat} {l : List Sym}, Path d p l q → p < a.size → a.size ≤ q →
      ∃ r1 r2 e s, e ∈ a.ends ∧ s ∈ b.starts ∧ Path a p r1 e ∧ Path c (N s) r2 q ∧ l = r1 ++ EPS :: r2 := by
    intro p q l hp
    induction hp with
    | nil => intro h1 h2; omega
    | cons hac hpath ih =>
      rename_i p x q' l r
      intro h1 h2
      rcases (harcs _ _).1 hac with hac | ⟨he, s, hs, e⟩
      · rw [h.old p h1] at hac
        obtain ⟨r1, r2, e, s, he, hs, p1, p2, rfl⟩ := ih (ha.dest _ _ _ hac) h2
        exact ⟨x :: r1, r2, e, s, he, hs, .cons hac p1, p2, rfl⟩
      · simp only [Prod.mk.injEq] at e
        obtain ⟨rfl, rfl⟩ := e
        exact ⟨[], l, p, s, he, hs, .nil, hcopy hpath (h.vals s (Reach.start hs)).1, rfl⟩
  intro w
  constructor
  · rintro ⟨r, ⟨p, hp, q, hq, hpath⟩, rfl⟩
    rw [hst] at hp
    obtain ⟨u, hu, hue, rfl⟩ := (hen q).1 hq
    rcases hp with hp | ⟨h1, _⟩
    · obtain ⟨r1, r2, e, s, he, hs, p1, p2, rfl⟩ := hcross hpath (ha.start p hp) (h.vals u hu).1
      obtain ⟨v, hv, ev⟩ := (h.path (Reach.start hs)).1 p2
      have := h.inj v u (hv.reach (Reach.start hs)) hu ev
      subst this
      refine ⟨noEps r1, noEps r2, ⟨r1, ⟨p, hp, e, he, p1⟩, rfl⟩,
        ⟨r2, ⟨s, hs, v, hue, copier_path.1 hv⟩, rfl⟩, ?_⟩
      show _ = noEps (r1 ++ EPS :: r2)
      rw [noEps_append, noEps_eps]
    · exact absurd h1 hne
  · rintro ⟨u, v, ⟨r1, ⟨p, hp, e, he, p1⟩, rfl⟩, ⟨r2, ⟨s, hs, f, hf, p2⟩, rfl⟩, rfl⟩
    have hs' := Reach.start (w := copier b) hs
    have hw := copier_path.2 p2
    refine ⟨r1 ++ EPS :: r2, ⟨p, (hst p).2 (Or.inl hp), N f, (hen _).2 ⟨f, hw.reach hs', hf, rfl⟩, ?_⟩, ?_⟩
    · refine path_append.2 ⟨e, hmono ((h.path_old ha (ha.start p hp)).2 p1), .cons ?_ (hmono ((h.path hs').2 ⟨f, hw, rfl⟩))⟩
      exact (harcs _ _).2 (Or.inr ⟨he, s, hs, rfl⟩)
    · show noEps (r1 ++ EPS :: r2) = noEps r1 ++ noEps r2
      rw [noEps_append, noEps_eps]

/-- An automaton without end states accepts nothing. -/
def nothing : Fsa := (Fsa.empty.addState true).2

/-- **C36** is false of `concatenate` when the first automaton has no end state: it accepts nothing, but
the concatenation with the automaton for `a` accepts `a`. -/
theorem C36_concatenate_false :
    ¬ ∀ a b : Fsa, Wf a → Wf b → ∃ c, concatenate a b = some c ∧ ∀ w, Lang c w → Concat (Lang a) (Lang b) w := by
  intro h
  obtain ⟨c, hc, hl⟩ := h nothing wordA (wf_addState wf_empty true) wordA_wf
  have e : concatenate nothing wordA = some ⟨[[], [(97, 2)], []], [0, 1], [2]⟩ := by decide +kernel
  rw [e] at hc
  simp only [Option.some.injEq] at hc
  subst hc
  obtain ⟨u, v, ⟨r, ⟨p, hp, q, hq, _⟩, _⟩, _⟩ := hl [97]
    ⟨[97], ⟨1, by simp, 2, by simp, path_one.2 (by simp [Fsa.arcs])⟩, by decide⟩
  simp [nothing, Fsa.addState, Fsa.empty] at hq

example : Wf wordA ∧ wordA.ends ≠ [] ∧ Wf sample ∧ Lang sample [] := by
  refine ⟨wordA_wf, by decide +kernel, built_wf sample_built, [255], ⟨0, by decide, 2, by decide, ?_⟩, by decide⟩
  exact .cons (by decide) .nil

end Verif.Fsa
