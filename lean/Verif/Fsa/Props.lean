import Verif.Fsa.Paths

/-!
C35: transformations of automata keep the language.
-/
set_option linter.unusedVariables false
set_option linter.unusedSimpArgs false

namespace Verif.Fsa
open Verif Verif.Fsa.Spec

theorem lang_of_raw {a b : Fsa} (h : ∀ w, Raw b w ↔ Raw a w) (w : List Sym) : Lang b w ↔ Lang a w := by
  unfold Lang
  simp only [h]

theorem raw_noEps {a : Fsa} (h : EpsFree a) {w : List Sym} (hr : Raw a w) : noEps w = w := by
  obtain ⟨p, hp, q, hq, hpath⟩ := hr
  clear hp hq
  rw [List.filter_eq_self]
  induction hpath with
  | nil => simp
  | cons ha _ ih =>
    intro x hx
    simp only [List.mem_cons] at hx
    rcases hx with rfl | hx
    · simpa using h _ _ _ ha
    · exact ih x hx

/-- Without epsilon transitions a word is accepted iff it labels a path. -/
theorem lang_epsFree {a : Fsa} (h : EpsFree a) (w : List Sym) : Lang a w ↔ Raw a w := by
  constructor
  · rintro ⟨r, hr, rfl⟩
    rw [show r.filter (fun x => decide (x ≠ EPS)) = r from raw_noEps h hr]; exact hr
  · intro hr; exact ⟨w, hr, raw_noEps h hr⟩

theorem lang_noEps {a : Fsa} {w : List Sym} (h : Lang a w) : EPS ∉ w := by
  obtain ⟨r, _, rfl⟩ := h
  simp

theorem Copied.raw_empty {σ : Type} [DecidableEq σ] {w : Wrapper σ} {f : Fsa} {N : σ → Nat} (h : Copied w .empty f N)
    (l : List Sym) : Raw f l ↔ WRaw w l := by
  rw [h.raw wf_empty]
  constructor
  · rintro (h | h)
    · exact absurd h (Fsa.raw_empty l)
    · exact h
  · exact Or.inr

theorem Copied.reachable {σ : Type} [DecidableEq σ] {w : Wrapper σ} {f : Fsa} {N : σ → Nat} (h : Copied w .empty f N) :
    AllReachable f := by
  intro n hn
  obtain ⟨s, hs, rfl⟩ := h.surj n (by simp [Fsa.empty, Fsa.size]) hn
  induction hs with
  | start hs => exact ⟨_, (h.starts _).2 (Or.inr ⟨_, hs, rfl⟩), [], .nil⟩
  | step hs ha ih =>
    obtain ⟨p, hp, l, hl⟩ := ih (h.vals _ hs).2
    exact ⟨p, hp, l ++ [_], path_append.2 ⟨_, hl, path_one.2 ((h.mem_arcs hs).2 ⟨_, ha, rfl⟩)⟩⟩

/-! ### Membership -/

/-- **C35** (membership test): `in` tells whether the word labels a path from a start state to an end
state. -/
theorem C35_in {a : Fsa} (ha : Wf a) (w : List Sym) : a.accepts w = true ↔ Raw a w := by
  rw [Fsa.accepts, inLoop_iff ha]; rfl

/-- **C35** (membership test): without epsilon transitions `in` is acceptance. -/
theorem C35_in_lang {a : Fsa} (ha : Wf a) (he : EpsFree a) (w : List Sym) :
    a.accepts w = true ↔ Lang a w := by
  rw [C35_in ha, lang_epsFree he]

/-! ### Reversal -/

/-- **C35** (reversal): the reversed automaton accepts exactly the reversed words. -/
theorem C35_reverse {a : Fsa} (ha : Wf a) :
    ∃ b, reverse a = some b ∧ Wf b ∧ (∀ w, Lang b w ↔ Lang a w.reverse) ∧
      ∀ w, Raw b w ↔ Raw a w.reverse := by
  obtain ⟨b, N, hb, hc⟩ := reverse_spec ha
  have hraw : ∀ w, Raw b w ↔ Raw a w.reverse := fun w => by rw [hc.raw_empty, reverser_raw]
  refine ⟨b, hb, hc.wf, ?_, hraw⟩
  intro w
  unfold Lang
  constructor
  · rintro ⟨r, hr, rfl⟩
    exact ⟨r.reverse, (hraw r).1 hr, by rw [List.filter_reverse]⟩
  · rintro ⟨r, hr, e⟩
    refine ⟨r.reverse, (hraw _).2 (by rwa [List.reverse_reverse]), ?_⟩
    rw [List.filter_reverse, e, List.reverse_reverse]

/-! ### Trimming -/

/-- **C35** (unreachable states): `reachable` keeps the language and only states that can be reached. -/
theorem C35_reachable {a : Fsa} (ha : Wf a) :
    ∃ b, reachable a = some b ∧ Wf b ∧ AllReachable b ∧ (∀ w, Lang b w ↔ Lang a w) ∧
      ∀ w, Raw b w ↔ Raw a w := by
  obtain ⟨b, N, hb, hc⟩ := copy_spec ha wf_empty
  have hraw : ∀ w, Raw b w ↔ Raw a w := fun w => by rw [hc.raw_empty, copier_raw]
  exact ⟨b, hb, hc.wf, hc.reachable, lang_of_raw hraw, hraw⟩

theorem reverse_useful {a b : Fsa} {N : Nat → Nat} (ha : Wf a) (hr : AllReachable a)
    (hc : Copied (reverser a) .empty b N) : AllUseful b := by
  intro n hn
  obtain ⟨s, hs, rfl⟩ := hc.surj n (by simp [Fsa.empty, Fsa.size]) hn
  obtain ⟨p, hp, l, hl⟩ := hr s (reverser_reach_lt ha hs)
  have hw : WPath (reverser a) s l.reverse p := reverser_path.2 (by rwa [List.reverse_reverse])
  refine ⟨l.reverse, N p, (hc.ends _).2 (Or.inr ⟨p, hw.reach hs, ?_, rfl⟩), (hc.path hs).2 ⟨p, hw, rfl⟩⟩
  simpa [reverser, Fsa.isStart] using hp

/-- **C35** (trimming): `prune` keeps the language, and only states that can be reached and from which
an end state can be reached. -/
theorem C35_prune {a : Fsa} (ha : Wf a) :
    ∃ b, prune a = some b ∧ Wf b ∧ AllReachable b ∧ AllUseful b ∧ (∀ w, Lang b w ↔ Lang a w) ∧
      ∀ w, Raw b w ↔ Raw a w := by
  obtain ⟨a1, N1, e1, c1⟩ := reverse_spec ha
  obtain ⟨a2, e2, w2, r2, _, raw2⟩ := C35_reachable c1.wf
  obtain ⟨a3, N3, e3, c3⟩ := reverse_spec w2
  have hraw : ∀ w, Raw a3 w ↔ Raw a w := fun w => by
    rw [c3.raw_empty, reverser_raw, raw2, c1.raw_empty, reverser_raw, List.reverse_reverse]
  refine ⟨a3, ?_, c3.wf, c3.reachable, reverse_useful w2 r2 c3, lang_of_raw hraw, hraw⟩
  simp [prune, e1, e2, e3]

/-! ### Epsilon removal -/

/-- **C35** (epsilon removal): the result has no epsilon transitions and the same language. -/
theorem C35_epsRemove {a : Fsa} (ha : Wf a) :
    ∃ b, epsRemove a = some b ∧ Wf b ∧ EpsFree b ∧ AllReachable b ∧ (∀ w, Lang b w ↔ Lang a w) ∧
      ∀ w, Raw b w ↔ Lang a w := by
  obtain ⟨b, N, hb, hc⟩ := epsRemove_spec ha
  have hraw : ∀ w, Raw b w ↔ Lang a w := fun w => by
    rw [hc.raw_empty, epsRemover_raw ha]
    exact ⟨fun h => h.2, fun h => ⟨lang_noEps h, h⟩⟩
  have hfree : EpsFree b := by
    intro n x q hx
    have hn : n < b.size := by
      by_contra hn
      rw [arcs_out (by omega)] at hx; simp at hx
    obtain ⟨s, hs, rfl⟩ := hc.surj n (by simp [Fsa.empty, Fsa.size]) hn
    obtain ⟨u, hu, _⟩ := (hc.mem_arcs hs).1 hx
    exact ((mem_epsRemover ha).1 hu).1
  exact ⟨b, hb, hc.wf, hfree, hc.reachable, fun w => by rw [lang_epsFree hfree, hraw], hraw⟩

/-! ### Determinization -/

theorem deterministic_of_copied {a b : Fsa} {N : List Nat → Nat} (hc : Copied (determinizer a) .empty b N) :
    Deterministic b := by
  refine ⟨⟨N a.starts, ?_⟩, ?_⟩
  · apply sorted_ext hc.wf.startsSorted (by simp)
    intro x
    rw [hc.starts]
    simp only [determinizer, List.mem_singleton, exists_eq_left, Fsa.empty, List.not_mem_nil, false_or]
    exact eq_comm
  · intro n
    by_cases hn : n < b.size
    · obtain ⟨s, hs, rfl⟩ := hc.surj n (by simp [Fsa.empty, Fsa.size]) hn
      have h1 : ((((determinizer a).arcs s).map (fun a => (a.1, N a.2)))).Pairwise (fun x y => x.1 ≠ y.1) := by
        rw [List.pairwise_map]; exact determinizer_distinct s
      exact ((hc.arcs s hs).pairwise_iff (fun h => Ne.symm h)).2 h1
    · rw [arcs_out (by omega)]; exact List.Pairwise.nil

/-- **C35** (determinization): the result is deterministic and has the same language.  (Epsilon is
treated like any other symbol; with epsilon transitions removed before, the result is deterministic in
the usual sense.) -/
theorem C35_determinize {a : Fsa} (ha : Wf a) :
    ∃ b, determinize a = some b ∧ Wf b ∧ Deterministic b ∧ AllReachable b ∧ (∀ w, Lang b w ↔ Lang a w) ∧
      ∀ w, Raw b w ↔ Raw a w := by
  obtain ⟨b, N, hb, hc⟩ := determinize_spec ha
  have hraw : ∀ w, Raw b w ↔ Raw a w := fun w => by rw [hc.raw_empty, determinizer_raw]
  exact ⟨b, hb, hc.wf, deterministic_of_copied hc, hc.reachable, lang_of_raw hraw, hraw⟩

/-! ### Minimization -/

theorem pairwise_ne {l : List (Sym × Nat)} (h : l.Pairwise (fun x y => x.1 ≠ y.1)) {x y : Sym × Nat}
    (hx : x ∈ l) (hy : y ∈ l) (hne : x ≠ y) : x.1 ≠ y.1 := by
  induction l with
  | nil => simp at hx
  | cons z l ih =>
    rw [List.pairwise_cons] at h
    simp only [List.mem_cons] at hx hy
    rcases hx with rfl | hx <;> rcases hy with rfl | hy
    · exact absurd rfl hne
    · exact h.1 y hy
    · exact Ne.symm (h.1 x hx)
    · exact ih h.2 hx hy

theorem det_unique {a : Fsa} (h : Deterministic a) {l : List Sym} : ∀ {p q q' : Nat},
    Path a p l q → Path a p l q' → q = q' := by
  induction l with
  | nil => intro p q q' h1 h2; cases h1; cases h2; rfl
  | cons x l ih =>
    intro p q q' h1 h2
    cases h1 with
    | cons a1 h1 =>
      cases h2 with
      | cons a2 h2 =>
        rename_i r1 r2
        have : r1 = r2 := by
          by_contra hne
          exact pairwise_ne (h.2 p) a1 a2 (by simp [hne]) rfl
        subst this
        exact ih h1 h2

theorem WPath.snoc {σ : Type} [DecidableEq σ] {w : Wrapper σ} {s u v : σ} {l : List Sym} {x : Sym}
    (h : WPath w s l u) (h' : (x, v) ∈ w.arcs u) : WPath w s (l ++ [x]) v := by
  induction h with
  | nil => exact .cons h' .nil
  | cons ha _ ih => exact .cons ha (ih h')

/-- `determinize (reverse d)`, for a deterministic `d` all whose states can be reached: different states
have different right languages, and the right language of a state other than the start state is not
empty. -/
theorem brzozowski {d r m : Fsa} {N : Nat → Nat} {M : List Nat → Nat} (hd : Wf d) (hdet : Deterministic d)
    (hre : AllReachable d) (cr : Copied (reverser d) .empty r N) (cm : Copied (determinizer r) .empty m M) :
    (∀ p q, p < m.size → q < m.size → (∀ w, Right m p w ↔ Right m q w) → p = q) ∧
    (∀ p, p < m.size → p ∈ m.starts ∨ ∃ w, Right m p w) := by
  obtain ⟨s0, hs0⟩ := hdet.1
  -- right languages of the states of m
  have hright : ∀ P, Reach (determinizer r) P → ∀ w, Right m (M P) w ↔ ∃ p ∈ P, ∃ q ∈ r.ends, Path r p w q := by
    intro P hP w
    constructor
    · rintro ⟨e, he, hpath⟩
      obtain ⟨Q, hQ, rfl⟩ := (cm.path hP).1 hpath
      rw [cm.ends] at he
      rcases he with he | ⟨Q', hQ', hf, e⟩
      · simp [Fsa.empty] at he
      · have := cm.inj Q' Q hQ' (hQ.reach hP) e
        subst this
        have hf' : ∃ q ∈ Q', q ∈ r.ends := by
          have : Q'.any r.isEnd = true := hf
          simpa [Fsa.isEnd] using this
        obtain ⟨q, hq, he⟩ := hf'
        obtain ⟨p, hp, h⟩ := (det_path hQ q).1 hq
        exact ⟨p, hp, q, he, h⟩
    · rintro ⟨p, hp, q, hq, h⟩
      obtain ⟨Q, hQ⟩ := det_path_exists hp h
      refine ⟨M Q, (cm.ends _).2 (Or.inr ⟨Q, hQ.reach hP, ?_, rfl⟩), (cm.path hP).2 ⟨Q, hQ, rfl⟩⟩
      show Q.any r.isEnd = true
      simp only [List.any_eq_true, Fsa.isEnd, decide_eq_true_eq]
      exact ⟨q, (det_path hQ q).2 ⟨p, hp, h⟩, hq⟩
  -- a state of r has a word of its own
  have hown : ∀ n, n < r.size → ∃ w, (∃ q ∈ r.ends, Path r n w q) ∧
      ∀ n', n' < r.size → (∃ q ∈ r.ends, Path r n' w q) → n' = n := by
    intro n hn
    obtain ⟨s, hs, rfl⟩ := cr.surj n (by simp [Fsa.empty, Fsa.size]) hn
    obtain ⟨p, hp, l, hl⟩ := hre s (reverser_reach_lt hd hs)
    have hpe : p = s0 := by rw [hs0] at hp; simpa using hp
    subst hpe
    refine ⟨l.reverse, ?_, ?_⟩
    · have hw : WPath (reverser d) s l.reverse p := reverser_path.2 (by rwa [List.reverse_reverse])
      refine ⟨N p, (cr.ends _).2 (Or.inr ⟨p, hw.reach hs, ?_, rfl⟩), (cr.path hs).2 ⟨p, hw, rfl⟩⟩
      simpa [reverser, Fsa.isStart] using hp
    · rintro n' hn' ⟨q, hq, h⟩
      obtain ⟨s', hs', rfl⟩ := cr.surj n' (by simp [Fsa.empty, Fsa.size]) hn'
      obtain ⟨u, hu, rfl⟩ := (cr.path hs').1 h
      rw [cr.ends] at hq
      rcases hq with hq | ⟨v, hv, hf, e⟩
      · simp [Fsa.empty] at hq
      · have := cr.inj v u hv (hu.reach hs') e
        subst this
        have hv0 : v = p := by
          have : v ∈ d.starts := by simpa [reverser, Fsa.isStart] using hf
          rw [hs0] at this; simpa using this
        subst hv0
        have := reverser_path.1 hu
        rw [List.reverse_reverse] at this
        rw [det_unique hdet this hl]
  have hlt : ∀ P, Reach (determinizer r) P → ∀ p ∈ P, p < r.size := fun P hP => (det_reach cr.wf hP).2
  have hsub : ∀ P Q, Reach (determinizer r) P → Reach (determinizer r) Q →
      (∀ w, Right m (M P) w → Right m (M Q) w) → ∀ p ∈ P, p ∈ Q := by
    intro P Q hP hQ h p hp
    obtain ⟨w, h1, h2⟩ := hown p (hlt P hP p hp)
    obtain ⟨p', hp', h'⟩ := (hright Q hQ w).1 (h w ((hright P hP w).2 ⟨p, hp, h1⟩))
    rw [← h2 p' (hlt Q hQ p' hp') h']; exact hp'
  constructor
  · intro p q hp hq h
    obtain ⟨P, hP, rfl⟩ := cm.surj p (by simp [Fsa.empty, Fsa.size]) hp
    obtain ⟨Q, hQ, rfl⟩ := cm.surj q (by simp [Fsa.empty, Fsa.size]) hq
    congr 1
    apply sorted_ext (det_reach cr.wf hP).1 (det_reach cr.wf hQ).1
    intro x
    exact ⟨hsub P Q hP hQ (fun w => (h w).1) x, hsub Q P hQ hP (fun w => (h w).2) x⟩
  · intro p hp
    obtain ⟨P, hP, rfl⟩ := cm.surj p (by simp [Fsa.empty, Fsa.size]) hp
    cases hP with
    | start hs => exact Or.inl ((cm.starts _).2 (Or.inr ⟨_, hs, rfl⟩))
    | step hs ha =>
      right
      have hP' := Reach.step hs ha
      obtain ⟨x, hx⟩ := List.exists_mem_of_ne_nil _ (det_arc ha).2.1
      obtain ⟨w, h1, _⟩ := hown x (hlt _ hP' x hx)
      exact ⟨w, (hright _ hP' w).2 ⟨x, hx, h1⟩⟩

theorem right_append {a : Fsa} (h : Deterministic a) {p q : Nat} {l : List Sym} (hp : Path a p l q) (w : List Sym) :
    Right a q w ↔ Right a p (l ++ w) := by
  constructor
  · rintro ⟨e, he, h'⟩; exact ⟨e, he, path_append.2 ⟨q, hp, h'⟩⟩
  · rintro ⟨e, he, h'⟩
    obtain ⟨q', h1, h2⟩ := path_append.1 h'
    rw [det_unique h hp h1]; exact ⟨e, he, h2⟩

/-- An automaton in which all states can be reached, are distinguished by their right languages, and
have (but for the start state) a non-empty one, is smallest. -/
theorem smallest {m c : Fsa} (hm : Deterministic m) (hre : AllReachable m) (hc : Deterministic c) (hcw : Wf c)
    (hdist : ∀ p q, p < m.size → q < m.size → (∀ w, Right m p w ↔ Right m q w) → p = q)
    (hne : ∀ p, p < m.size → p ∈ m.starts ∨ ∃ w, Right m p w)
    (hl : ∀ w, Raw c w ↔ Raw m w) : m.size ≤ c.size := by
  obtain ⟨s, hs⟩ := hm.1
  obtain ⟨t, ht⟩ := hc.1
  have hl' : ∀ w, Right c t w ↔ Right m s w := by
    intro w
    have := hl w
    unfold Raw at this
    rw [hs, ht] at this
    simpa [Right] using this
  have hex : ∀ p, ∃ u, p < m.size → ∃ l, Path m s l p ∧ Path c t l u := by
    intro p
    by_cases hp : p < m.size
    · rcases hne p hp with h | ⟨w, hw⟩
      · have : p = s := by rw [hs] at h; simpa using h
        subst this
        exact ⟨t, fun _ => ⟨[], .nil, .nil⟩⟩
      · obtain ⟨s', hs', l, hpath⟩ := hre p hp
        have : s' = s := by rw [hs] at hs'; simpa using hs'
        subst this
        obtain ⟨e, _, h⟩ := (hl' (l ++ w)).2 ((right_append hm hpath w).1 hw)
        obtain ⟨u, hu, _⟩ := path_append.1 h
        exact ⟨u, fun _ => ⟨l, hpath, hu⟩⟩
    · exact ⟨0, fun h => absurd h hp⟩
  choose F hF using hex
  have hnd : ((List.range m.size).map F).Nodup := by
    apply List.Nodup.map_on
    · intro p hp q hq e
      rw [List.mem_range] at hp hq
      obtain ⟨l, h1, h2⟩ := hF p hp
      obtain ⟨l', h1', h2'⟩ := hF q hq
      apply hdist p q hp hq
      intro w
      rw [right_append hm h1, right_append hm h1', ← hl', ← hl', ← right_append hc h2, ← right_append hc h2', e]
    · exact List.nodup_range
  have hsub : ((List.range m.size).map F).Subperm (List.range c.size) := by
    apply List.subperm_of_subset hnd
    intro u hu
    rw [List.mem_map] at hu
    obtain ⟨p, hp, rfl⟩ := hu
    obtain ⟨l, _, h2⟩ := hF p (List.mem_range.1 hp)
    exact List.mem_range.2 (Path.lt hcw h2 (hcw.start t (by rw [ht]; simp)))
  simpa using hsub.length_le

/-- **C35** (minimization): the result accepts the same words, without epsilon transitions; it is
deterministic, and no deterministic automaton that accepts these words has fewer states. -/
theorem C35_minimize {a : Fsa} (ha : Wf a) :
    ∃ b, minimize a = some b ∧ Wf b ∧ Deterministic b ∧ EpsFree b ∧ (∀ w, Lang b w ↔ Lang a w) ∧
      (∀ w, Raw b w ↔ Lang a w) ∧
      ∀ c, Wf c → Deterministic c → (∀ w, Raw c w ↔ Lang a w) → b.size ≤ c.size := by
  obtain ⟨a1, e1, w1, f1, _, _, raw1⟩ := C35_epsRemove ha
  obtain ⟨a2, N2, e2, c2⟩ := reverse_spec w1
  obtain ⟨a3, N3, e3, c3⟩ := determinize_spec c2.wf
  obtain ⟨a4, N4, e4, c4⟩ := reverse_spec c3.wf
  obtain ⟨a5, N5, e5, c5⟩ := determinize_spec c4.wf
  have hraw : ∀ w, Raw a5 w ↔ Lang a w := fun w => by
    rw [c5.raw_empty, determinizer_raw, c4.raw_empty, reverser_raw, c3.raw_empty, determinizer_raw,
      c2.raw_empty, reverser_raw, List.reverse_reverse, raw1]
  have hbz := brzozowski c3.wf (deterministic_of_copied c3) c3.reachable c4 c5
  have hfree : EpsFree a5 := by
    -- an epsilon arc would be used by an accepted word
    intro p x q hx e
    subst e
    have hp : p < a5.size := by
      by_contra hn
      rw [arcs_out (by omega)] at hx; simp at hx
    have hq := c5.wf.dest _ _ _ hx
    obtain ⟨s, hs, l, hl⟩ := c5.reachable p hp
    have hword : ∃ w, Right a5 q w := by
      rcases hbz.2 q hq with h | h
      · -- the start state; it has an arc to it, so its set is not empty
        obtain ⟨P, hP, rfl⟩ := c5.surj p (by simp [Fsa.empty, Fsa.size]) hp
        obtain ⟨Q, hQ, rfl⟩ := (c5.mem_arcs hP).1 hx
        have hQr := hP.step hQ
        by_contra hno
        -- Q is not empty, and all states of it lead to an end state
        obtain ⟨y, hy⟩ := List.exists_mem_of_ne_nil _ (det_arc hQ).2.1
        have hylt := (det_reach c4.wf hQr).2 y hy
        obtain ⟨w, e, he, hw⟩ := reverse_useful c3.wf c3.reachable c4 y hylt
        obtain ⟨R, hR⟩ := det_path_exists hy hw
        apply hno
        refine ⟨w, N5 R, (c5.ends _).2 (Or.inr ⟨R, hR.reach hQr, ?_, rfl⟩), (c5.path hQr).2 ⟨R, hR, rfl⟩⟩
        show R.any a4.isEnd = true
        simp only [List.any_eq_true, Fsa.isEnd, decide_eq_true_eq]
        exact ⟨e, (det_path hR e).2 ⟨y, hy, hw⟩, he⟩
      · exact h
    obtain ⟨w, e, he, hw⟩ := hword
    have : Raw a5 (l ++ EPS :: w) := ⟨s, hs, e, he, path_append.2 ⟨p, hl, .cons hx hw⟩⟩
    have := lang_noEps ((hraw _).1 this)
    simp at this
  refine ⟨a5, ?_, c5.wf, deterministic_of_copied c5, hfree, fun w => by rw [lang_epsFree hfree, hraw], hraw, ?_⟩
  · simp [minimize, e1, e2, e3, e4, e5]
  · intro c hcw hcd hc
    exact smallest (deterministic_of_copied c5) c5.reachable hcd hcw hbz.1 hbz.2 (fun w => by rw [hc, hraw])

/-- Automata as in the theorems exist: here one with epsilon transitions, two start states, and arcs
with the same symbol. -/
def sample : Fsa :=
  ⟨[[(97, 1), (97, 2), (255, 2)], [(98, 1), (255, 0)], []], [0, 1], [2]⟩

theorem sample_built : Built sample := by
  have h1 := Built.addState true Built.empty
  have h2 := Built.addState true h1
  have h3 := Built.addState false h2
  have h4 := Built.addArc (p := 0) (x := 255) (q := 2) h3 (by decide) (by decide)
  have h5 := Built.addArc (p := 0) (x := 97) (q := 2) h4 (by decide) (by decide)
  have h6 := Built.addArc (p := 0) (x := 97) (q := 1) h5 (by decide) (by decide)
  have h7 := Built.addArc (p := 1) (x := 255) (q := 0) h6 (by decide) (by decide)
  have h8 := Built.addArc (p := 1) (x := 98) (q := 1) h7 (by decide) (by decide)
  have h9 := Built.setEnd (p := 2) h8 (by decide)
  have e : ∀ b, Built b → b = sample → Built sample := fun b hb e => e ▸ hb
  exact e _ h9 (by decide +kernel)

example : Wf sample := built_wf sample_built

example : Lang sample [97] ∧ Lang sample [97, 98, 98, 97] ∧ (minimize sample).isSome := by
  refine ⟨⟨[97], ⟨0, by decide, 2, by decide, ?_⟩, by decide⟩,
    ⟨[97, 98, 98, 255, 97], ⟨0, by decide, 2, by decide, ?_⟩, by decide⟩, by decide +kernel⟩
  · exact .cons (by decide) .nil
  · exact .cons (q := 1) (by decide) (.cons (q := 1) (by decide) (.cons (q := 1) (by decide)
      (.cons (q := 0) (by decide) (.cons (by decide) .nil))))

end Verif.Fsa
