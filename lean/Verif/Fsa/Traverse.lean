import Verif.Fsa.Sets
import Mathlib.Data.List.Perm.Basic
import Mathlib.Data.List.Nodup
import Mathlib.Data.List.Perm.Subperm

/-!
The traversal copies the reachable part of the wrapped automaton.
-/
set_option linter.unusedVariables false
set_option linter.unusedSimpArgs false
set_option linter.unusedSectionVars false

namespace Verif.Fsa
open Verif Verif.Fsa.Spec

variable {σ : Type} [DecidableEq σ]

/-- Reachability in the wrapped automaton. -/
inductive Reach (w : Wrapper σ) : σ → Prop
  | start {s} : s ∈ w.starts → Reach w s
  | step {s x u} : Reach w s → (x, u) ∈ w.arcs s → Reach w u

theorem look_cons (m : List (σ × Nat)) (s u : σ) (n : Nat) :
    look ((s, n) :: m) u = if s = u then some n else look m u := by
  unfold look
  rw [List.find?_cons]
  by_cases h : s = u <;> simp [h]

theorem look_none {m : List (σ × Nat)} {s : σ} : look m s = none ↔ s ∉ m.map (·.1) := by
  induction m with
  | nil => simp [look]
  | cons p m ih =>
    obtain ⟨u, n⟩ := p
    rw [look_cons]
    by_cases h : u = s
    · simp [h]
    · rw [if_neg h, ih]
      simp [Ne.symm h]

/-- What holds of the automaton under construction, when the arcs `D s` have been added for `s`,
the states with `E` have been made end states, and the states `S` start states. -/
structure TI (f0 : Fsa) (f : Fsa) (m : List (σ × Nat)) (D : σ → List (Sym × σ)) (E : σ → Bool)
    (S : List σ) : Prop where
  wf : Wf f
  le : f0.size ≤ f.size
  vals : ∀ s n, look m s = some n → f0.size ≤ n ∧ n < f.size
  inj : ∀ s u n, look m s = some n → look m u = some n → s = u
  surj : ∀ n, f0.size ≤ n → n < f.size → ∃ s, look m s = some n
  old : ∀ p, p < f0.size → f.arcs p = f0.arcs p
  arcs : ∀ s n, look m s = some n →
    List.Perm (f.arcs n) ((D s).map (fun a => (a.1, (look m a.2).getD 0)))
  dkeys : ∀ s a, a ∈ D s → (look m a.2).isSome
  nokey : ∀ s, look m s = none → D s = [] ∧ E s = false
  starts : ∀ n, n ∈ f.starts ↔ n ∈ f0.starts ∨ ∃ s ∈ S, look m s = some n
  skeys : ∀ s ∈ S, (look m s).isSome
  ends : ∀ n, n ∈ f.ends ↔ n ∈ f0.ends ∨ ∃ s, E s = true ∧ look m s = some n

theorem TI.new {f0 f : Fsa} {m : List (σ × Nat)} {D : σ → List (Sym × σ)} {E : σ → Bool} {S : List σ}
    (h : TI f0 f m D E S) {s : σ} (hs : look m s = none) (b : Bool) :
    TI f0 (f.addState b).2 ((s, f.size) :: m) D E (if b then S ++ [s] else S) := by
  have hl : ∀ u n, look m u = some n → look ((s, f.size) :: m) u = some n := by
    intro u n hu
    rw [look_cons, if_neg]
    · exact hu
    · rintro rfl; rw [hs] at hu; simp at hu
  have hinv : ∀ u n, look ((s, f.size) :: m) u = some n → (u = s ∧ n = f.size) ∨ look m u = some n := by
    intro u n hu
    rw [look_cons] at hu
    split at hu
    · rename_i e; left; simp at hu; exact ⟨e.symm, hu.symm⟩
    · exact Or.inr hu
  refine ⟨wf_addState h.wf b, ?_, ?_, ?_, ?_, ?_, ?_, ?_, ?_, ?_, ?_, ?_⟩
  · rw [size_addState]; have := h.le; omega
  · intro u n hu
    rw [size_addState]
    rcases hinv u n hu with ⟨_, rfl⟩ | hu
    · have := h.le; omega
    · have := h.vals u n hu; omega
  · intro u v n hu hv
    rcases hinv u n hu with ⟨e1, e⟩ | hu2 <;> rcases hinv v n hv with ⟨e2, e'⟩ | hv2
    · rw [e1, e2]
    · have := h.vals v n hv2; omega
    · have := h.vals u n hu2; omega
    · exact h.inj u v n hu2 hv2
  · intro n h1 h2
    rw [size_addState] at h2
    by_cases hn : n = f.size
    · exact ⟨s, by rw [look_cons, if_pos rfl, hn]⟩
    · obtain ⟨u, hu⟩ := h.surj n h1 (by omega)
      exact ⟨u, hl u n hu⟩
  · intro p hp; rw [arcs_addState]; exact h.old p hp
  · intro u n hu
    rw [arcs_addState]
    have hD : (D u).map (fun a => (a.1, (look ((s, f.size) :: m) a.2).getD 0)) =
        (D u).map (fun a => (a.1, (look m a.2).getD 0)) := by
      apply List.map_congr_left
      intro a ha
      obtain ⟨n', hn'⟩ := Option.isSome_iff_exists.1 (h.dkeys u a ha)
      rw [hl _ _ hn', hn']
    rw [hD]
    rcases hinv u n hu with ⟨rfl, rfl⟩ | hu
    · rw [(h.nokey u hs).1, arcs_out (Nat.le_refl _)]; exact List.Perm.refl _
    · exact h.arcs u n hu
  · intro u a ha
    obtain ⟨n', hn'⟩ := Option.isSome_iff_exists.1 (h.dkeys u a ha)
    rw [hl _ _ hn']; rfl
  · intro u hu
    rw [look_cons] at hu
    split at hu
    · simp at hu
    · exact h.nokey u hu
  · intro n
    cases b with
    | false =>
      show n ∈ f.starts ↔ _
      rw [h.starts]
      constructor
      · rintro (h1 | ⟨u, hu, e⟩)
        · exact Or.inl h1
        · exact Or.inr ⟨u, hu, hl _ _ e⟩
      · rintro (h1 | ⟨u, hu, e⟩)
        · exact Or.inl h1
        · obtain ⟨n', hn'⟩ := Option.isSome_iff_exists.1 (h.skeys u hu)
          rw [hl _ _ hn'] at e
          exact Or.inr ⟨u, hu, by rw [hn', e]⟩
    | true =>
      show n ∈ insertSet natLt f.size f.starts ↔ _
      rw [mem_insertSet natLt_order, h.starts]
      simp only [if_true, List.mem_append, List.mem_singleton]
      constructor
      · rintro (rfl | h1 | ⟨u, hu, e⟩)
        · exact Or.inr ⟨s, Or.inr rfl, by rw [look_cons, if_pos rfl]⟩
        · exact Or.inl h1
        · exact Or.inr ⟨u, Or.inl hu, hl _ _ e⟩
      · rintro (h1 | ⟨u, hu | rfl, e⟩)
        · exact Or.inr (Or.inl h1)
        · obtain ⟨n', hn'⟩ := Option.isSome_iff_exists.1 (h.skeys u hu)
          rw [hl _ _ hn'] at e
          exact Or.inr (Or.inr ⟨u, hu, by rw [hn', e]⟩)
        · rw [look_cons, if_pos rfl] at e
          simp at e
          exact Or.inl e.symm
  · intro u hu
    have hold : u ∈ S → (look ((s, f.size) :: m) u).isSome := by
      intro hu
      obtain ⟨n', hn'⟩ := Option.isSome_iff_exists.1 (h.skeys u hu)
      rw [hl _ _ hn']; rfl
    cases b with
    | false => exact hold hu
    | true =>
      simp only [if_true, List.mem_append, List.mem_singleton] at hu
      rcases hu with hu | rfl
      · exact hold hu
      · rw [look_cons, if_pos rfl]; rfl
  · intro n
    show n ∈ f.ends ↔ _
    rw [h.ends]
    constructor
    · rintro (h1 | ⟨u, hu, e⟩)
      · exact Or.inl h1
      · exact Or.inr ⟨u, hu, hl _ _ e⟩
    · rintro (h1 | ⟨u, hu, e⟩)
      · exact Or.inl h1
      · rcases hinv u n e with ⟨rfl, _⟩ | e
        · rw [(h.nokey u hs).2] at hu; simp at hu
        · exact Or.inr ⟨u, hu, e⟩

theorem TI.setEnd {f0 f : Fsa} {m : List (σ × Nat)} {D : σ → List (Sym × σ)} {E : σ → Bool} {S : List σ}
    (h : TI f0 f m D E S) {s : σ} {k : Nat} (hs : look m s = some k) :
    TI f0 (f.setEnd k) m D (fun u => if u = s then true else E u) S := by
  refine ⟨wf_setEnd h.wf (h.vals s k hs).2, h.le, h.vals, h.inj, h.surj, h.old, h.arcs, h.dkeys, ?_,
    h.starts, h.skeys, ?_⟩
  · intro u hu
    refine ⟨(h.nokey u hu).1, ?_⟩
    rw [if_neg]
    · exact (h.nokey u hu).2
    · rintro rfl; rw [hs] at hu; simp at hu
  · intro n
    show n ∈ insertSet natLt k f.ends ↔ _
    rw [mem_insertSet natLt_order, h.ends]
    constructor
    · rintro (rfl | h1 | ⟨u, hu, e⟩)
      · exact Or.inr ⟨s, by simp, hs⟩
      · exact Or.inl h1
      · exact Or.inr ⟨u, by simp [hu], e⟩
    · rintro (h1 | ⟨u, hu, e⟩)
      · exact Or.inr (Or.inl h1)
      · by_cases hus : u = s
        · subst hus; rw [hs] at e; simp at e; exact Or.inl e.symm
        · simp [hus] at hu; exact Or.inr (Or.inr ⟨u, hu, e⟩)

theorem perm_insertSorted {lt : α → α → Bool} (x : α) (l : List α) :
    List.Perm (insertSorted lt x l) (x :: l) := by
  induction l with
  | nil => exact List.Perm.refl _
  | cons y l ih =>
    unfold insertSorted
    split
    · exact (List.Perm.cons y ih).trans (List.Perm.swap x y l)
    · exact List.Perm.refl _

theorem TI.addArc {f0 f : Fsa} {m : List (σ × Nat)} {D : σ → List (Sym × σ)} {E : σ → Bool} {S : List σ}
    (h : TI f0 f m D E S) {s u : σ} {k j : Nat} {x : Sym} (hs : look m s = some k) (hu : look m u = some j) :
    TI f0 (f.addArc k (x, j)) m (fun v => if v = s then D s ++ [(x, u)] else D v) E S := by
  have hk := (h.vals s k hs).2
  have hj := (h.vals u j hu).2
  refine ⟨wf_addArc h.wf hk hj, ?_, ?_, h.inj, ?_, ?_, ?_, ?_, ?_, h.starts, h.skeys, h.ends⟩
  · rw [size_addArc]; exact h.le
  · intro v n hv; rw [size_addArc]; exact h.vals v n hv
  · intro n; rw [size_addArc]; exact h.surj n
  · intro p hp
    rw [arcs_addArc p hk, if_neg]
    · exact h.old p hp
    · have := (h.vals s k hs).1; omega
  · intro v n hv
    rw [arcs_addArc n hk]
    by_cases hvs : v = s
    · subst hvs
      have hn : n = k := by rw [hs] at hv; simpa using hv.symm
      rw [if_pos hn, if_pos rfl, List.map_append]
      refine (perm_insertSorted _ _).trans ?_
      refine (List.Perm.cons _ (h.arcs v k hs)).trans ?_
      refine (List.perm_append_singleton _ _).symm.trans ?_
      simp [hu]
    · have hn : n ≠ k := by
        rintro rfl; exact hvs (h.inj v s n hv hs)
      rw [if_neg hn, if_neg hvs]
      exact h.arcs v n hv
  · intro v a ha
    by_cases hvs : v = s
    · rw [if_pos hvs] at ha
      rw [List.mem_append, List.mem_singleton] at ha
      rcases ha with ha | rfl
      · exact h.dkeys s a ha
      · simp [hu]
    · rw [if_neg hvs] at ha; exact h.dkeys v a ha
  · intro v hv
    have hvs : v ≠ s := by rintro rfl; rw [hs] at hv; simp at hv
    rw [if_neg hvs]; exact h.nokey v hv

/-- The invariant while the arcs of `s` are processed; `L` are the arcs processed so far, `k` states
have been taken from the queue. -/
structure MI (w : Wrapper σ) (f0 : Fsa) (s : σ) (L : List (Sym × σ)) (k : Nat) (t : Trav σ)
    (D : σ → List (Sym × σ)) (E : σ → Bool) : Prop where
  ti : TI f0 t.fsa t.map D E w.starts
  nodup : t.queue.Nodup
  out : s ∉ t.queue
  key : (look t.map s).isSome
  done : D s = L
  fin : E s = w.final s
  queued : ∀ u ∈ t.queue, (look t.map u).isSome ∧ D u = [] ∧ E u = false
  finished : ∀ u, (look t.map u).isSome → u ∉ t.queue → u ≠ s → D u = w.arcs u ∧ E u = w.final u
  reach : ∀ u, (look t.map u).isSome → Reach w u
  len : t.map.length = t.queue.length + k
  keys : (t.map.map (·.1)).Nodup

theorem MI.step {w : Wrapper σ} {f0 : Fsa} {s : σ} {L : List (Sym × σ)} {k : Nat} {t : Trav σ}
    {D : σ → List (Sym × σ)} {E : σ → Bool} (h : MI w f0 s L k t D E) {a : Sym × σ} (ha : a ∈ w.arcs s) :
    ∃ D' E', MI w f0 s (L ++ [a]) k (travArc s t a) D' E' := by
  obtain ⟨x, u⟩ := a
  obtain ⟨n, hn⟩ := Option.isSome_iff_exists.1 h.key
  cases hu : look t.map u with
  | some j =>
    refine ⟨fun v => if v = s then D s ++ [(x, u)] else D v, E, ?_⟩
    have ht : travArc s t (x, u) = { t with fsa := t.fsa.addArc n (x, j) } := by
      simp [travArc, travNew, hu, hn]
    rw [ht]
    refine ⟨h.ti.addArc hn hu, h.nodup, h.out, h.key, by simp [h.done], h.fin, ?_, ?_, h.reach, h.len, h.keys⟩
    · intro v hv
      have hvs : v ≠ s := by rintro rfl; exact h.out hv
      simp only [if_neg hvs]; exact h.queued v hv
    · intro v hv hq hvs
      simp only [if_neg hvs]; exact h.finished v hv hq hvs
  | none =>
    have hus : u ≠ s := by rintro rfl; rw [hn] at hu; simp at hu
    have hn' : look ((u, t.fsa.size) :: t.map) s = some n := by
      rw [look_cons, if_neg hus]; exact hn
    have hu' : look ((u, t.fsa.size) :: t.map) u = some t.fsa.size := by
      rw [look_cons, if_pos rfl]
    refine ⟨fun v => if v = s then D s ++ [(x, u)] else D v, E, ?_⟩
    have ht : travArc s t (x, u) =
        ⟨(t.fsa.addState false).2.addArc n (x, t.fsa.size), (u, t.fsa.size) :: t.map, u :: t.queue⟩ := by
      simp [travArc, travNew, hu, hn', hu', Fsa.addState]
    have hunq : u ∉ t.queue := by
      intro hq; have := (h.queued u hq).1; rw [hu] at this; simp at this
    have hkey : ∀ v, (look ((u, t.fsa.size) :: t.map) v).isSome → v = u ∨ (look t.map v).isSome := by
      intro v hv
      rw [look_cons] at hv
      split at hv
      · rename_i e; exact Or.inl e.symm
      · exact Or.inr hv
    rw [ht]
    refine ⟨(h.ti.new hu false).addArc hn' hu', ?_, ?_, ?_, by simp [h.done], h.fin, ?_, ?_, ?_, ?_, ?_⟩
    · exact List.nodup_cons.2 ⟨hunq, h.nodup⟩
    · rw [List.mem_cons]; rintro (e | hq)
      · exact hus e.symm
      · exact h.out hq
    · simp only [hn', Option.isSome_some]
    · intro v hv
      have hv' : v = u ∨ v ∈ t.queue := by simpa using hv
      have hvs : v ≠ s := by
        rintro rfl
        rcases hv' with e | hq
        · exact hus e.symm
        · exact h.out hq
      simp only [if_neg hvs]
      rcases hv' with rfl | hq
      · exact ⟨by simp [hu'], h.ti.nokey v hu⟩
      · refine ⟨?_, (h.queued v hq).2⟩
        have h1 := (h.queued v hq).1
        show (look ((u, t.fsa.size) :: t.map) v).isSome
        rw [look_cons]; split
        · rfl
        · exact h1
    · intro v hv hq hvs
      simp only [List.mem_cons, not_or] at hq
      simp only [if_neg hvs]
      rcases hkey v hv with rfl | hv
      · exact absurd rfl hq.1
      · exact h.finished v hv hq.2 hvs
    · intro v hv
      rcases hkey v hv with rfl | hv
      · exact Reach.step (h.reach s h.key) ha
      · exact h.reach v hv
    · simp only [List.length_cons, h.len]; omega
    · simp only [List.map_cons]
      exact List.nodup_cons.2 ⟨look_none.1 hu, h.keys⟩

theorem MI.steps {w : Wrapper σ} {f0 : Fsa} {s : σ} {k : Nat} (l : List (Sym × σ)) (hl : ∀ a ∈ l, a ∈ w.arcs s) :
    ∀ {L : List (Sym × σ)} {t : Trav σ} {D : σ → List (Sym × σ)} {E : σ → Bool},
    MI w f0 s L k t D E → ∃ D' E', MI w f0 s (L ++ l) k (l.foldl (travArc s) t) D' E' := by
  induction l with
  | nil => intro L t D E h; exact ⟨D, E, by simpa using h⟩
  | cons a l ih =>
    intro L t D E h
    obtain ⟨D', E', h'⟩ := h.step (hl a (List.mem_cons_self ..))
    obtain ⟨D'', E'', h''⟩ := ih (fun b hb => hl b (List.mem_cons_of_mem _ hb)) h'
    exact ⟨D'', E'', by simpa using h''⟩

/-- The invariant of the main loop; `k` states have been taken from the queue. -/
structure LI (w : Wrapper σ) (f0 : Fsa) (k : Nat) (t : Trav σ)
    (D : σ → List (Sym × σ)) (E : σ → Bool) : Prop where
  ti : TI f0 t.fsa t.map D E w.starts
  nodup : t.queue.Nodup
  queued : ∀ u ∈ t.queue, (look t.map u).isSome ∧ D u = [] ∧ E u = false
  finished : ∀ u, (look t.map u).isSome → u ∉ t.queue → D u = w.arcs u ∧ E u = w.final u
  reach : ∀ u, (look t.map u).isSome → Reach w u
  len : t.map.length = t.queue.length + k
  keys : (t.map.map (·.1)).Nodup

theorem LI.step {w : Wrapper σ} {f0 : Fsa} {k : Nat} {t : Trav σ} {D : σ → List (Sym × σ)} {E : σ → Bool}
    (h : LI w f0 k t D E) {s : σ} {q : List σ} (hq : t.queue = s :: q) :
    ∃ D' E', LI w f0 (k + 1) (travState w { t with queue := q } s) D' E' := by
  have hs := h.queued s (by rw [hq]; simp)
  have hnd := h.nodup
  rw [hq, List.nodup_cons] at hnd
  obtain ⟨n, hn⟩ := Option.isSome_iff_exists.1 hs.1
  have hqs : ∀ u ∈ q, u ≠ s := by rintro u hu rfl; exact hnd.1 hu
  have hl := h.len
  have hmi : ∃ E', MI w f0 s [] (k + 1)
      (if w.final s then { fsa := t.fsa.setEnd n, map := t.map, queue := q } else { t with queue := q }) D E' := by
    cases hf : w.final s with
    | true =>
      refine ⟨fun u => if u = s then true else E u, ?_⟩
      rw [if_pos rfl]
      refine ⟨h.ti.setEnd hn, hnd.2, hnd.1, hs.1, hs.2.1, by simp [hf], ?_, ?_, h.reach, ?_, h.keys⟩
      · intro u hu
        have := h.queued u (by rw [hq]; simp [hu])
        simp only [if_neg (hqs u hu)]; exact this
      · intro u hu hnq hus
        have := h.finished u hu (by rw [hq]; simp only [List.mem_cons, not_or]; exact ⟨hus, hnq⟩)
        simp only [if_neg hus]; exact this
      · show t.map.length = q.length + (k + 1)
        rw [hl, hq, List.length_cons]; omega
    | false =>
      refine ⟨E, ?_⟩
      rw [if_neg (by simp)]
      refine ⟨h.ti, hnd.2, hnd.1, hs.1, hs.2.1, by rw [hs.2.2, hf], ?_, ?_, h.reach, ?_, h.keys⟩
      · intro u hu
        exact h.queued u (by rw [hq]; simp [hu])
      · intro u hu hnq hus
        exact h.finished u hu (by rw [hq]; simp only [List.mem_cons, not_or]; exact ⟨hus, hnq⟩)
      · show t.map.length = q.length + (k + 1)
        rw [hl, hq, List.length_cons]; omega
  obtain ⟨E', hmi⟩ := hmi
  obtain ⟨D'', E'', h''⟩ := MI.steps (w.arcs s) (fun _ h => h) hmi
  have hts : travState w { t with queue := q } s = (w.arcs s).foldl (travArc s)
      (if w.final s then { fsa := t.fsa.setEnd n, map := t.map, queue := q } else { t with queue := q }) := by
    simp [travState, travNew, hn]
  rw [hts]
  refine ⟨D'', E'', h''.ti, h''.nodup, h''.queued, ?_, h''.reach, h''.len, h''.keys⟩
  intro u hu hnq
  by_cases hus : u = s
  · subst hus; exact ⟨h''.done, h''.fin⟩
  · exact h''.finished u hu hnq hus

/-- What the result of a traversal is: the old automaton together with a copy of the reachable part
of the wrapped one; `N` numbers the states of the copy. -/
structure Copied (w : Wrapper σ) (f0 f : Fsa) (N : σ → Nat) : Prop where
  wf : Wf f
  le : f0.size ≤ f.size
  vals : ∀ s, Reach w s → f0.size ≤ N s ∧ N s < f.size
  inj : ∀ s u, Reach w s → Reach w u → N s = N u → s = u
  surj : ∀ n, f0.size ≤ n → n < f.size → ∃ s, Reach w s ∧ N s = n
  old : ∀ p, p < f0.size → f.arcs p = f0.arcs p
  arcs : ∀ s, Reach w s → List.Perm (f.arcs (N s)) ((w.arcs s).map (fun a => (a.1, N a.2)))
  starts : ∀ n, n ∈ f.starts ↔ n ∈ f0.starts ∨ ∃ s ∈ w.starts, N s = n
  ends : ∀ n, n ∈ f.ends ↔ n ∈ f0.ends ∨ ∃ s, Reach w s ∧ w.final s = true ∧ N s = n

theorem LI.copied {w : Wrapper σ} {f0 : Fsa} {k : Nat} {t : Trav σ} {D : σ → List (Sym × σ)} {E : σ → Bool}
    (h : LI w f0 k t D E) (hq : t.queue = []) :
    Copied w f0 t.fsa (fun s => (look t.map s).getD 0) := by
  have hfin : ∀ u, (look t.map u).isSome → D u = w.arcs u ∧ E u = w.final u := by
    intro u hu; exact h.finished u hu (by rw [hq]; simp)
  have hr : ∀ s, Reach w s → ∃ n, look t.map s = some n := by
    intro s hs
    induction hs with
    | start hs => exact Option.isSome_iff_exists.1 (h.ti.skeys _ hs)
    | step hs ha ih =>
      obtain ⟨n, hn⟩ := ih
      rw [← (hfin _ (by rw [hn]; rfl)).1] at ha
      exact Option.isSome_iff_exists.1 (h.ti.dkeys _ _ ha)
  have hk : ∀ s n, look t.map s = some n → Reach w s := fun s n hn => h.reach s (by rw [hn]; rfl)
  refine ⟨h.ti.wf, h.ti.le, ?_, ?_, ?_, h.ti.old, ?_, ?_, ?_⟩
  · intro s hs
    obtain ⟨n, hn⟩ := hr s hs
    simp only [hn, Option.getD_some]; exact h.ti.vals s n hn
  · intro s u hs hu e
    obtain ⟨n, hn⟩ := hr s hs
    obtain ⟨j, hj⟩ := hr u hu
    simp only [hn, hj, Option.getD_some] at e
    subst e
    exact h.ti.inj s u n hn hj
  · intro n h1 h2
    obtain ⟨s, hs⟩ := h.ti.surj n h1 h2
    exact ⟨s, hk s n hs, by simp [hs]⟩
  · intro s hs
    obtain ⟨n, hn⟩ := hr s hs
    have := h.ti.arcs s n hn
    rw [(hfin s (by rw [hn]; rfl)).1] at this
    simpa only [hn, Option.getD_some] using this
  · intro n
    rw [h.ti.starts]
    constructor
    · rintro (h1 | ⟨s, hs, e⟩)
      · exact Or.inl h1
      · exact Or.inr ⟨s, hs, by simp [e]⟩
    · rintro (h1 | ⟨s, hs, e⟩)
      · exact Or.inl h1
      · obtain ⟨j, hj⟩ := hr s (Reach.start hs)
        simp only [hj, Option.getD_some] at e
        exact Or.inr ⟨s, hs, by rw [hj, e]⟩
  · intro n
    rw [h.ti.ends]
    constructor
    · rintro (h1 | ⟨s, hs, e⟩)
      · exact Or.inl h1
      · refine Or.inr ⟨s, hk s n e, ?_, by simp [e]⟩
        rw [← (hfin s (by rw [e]; rfl)).2]; exact hs
    · rintro (h1 | ⟨s, hs, hf, e⟩)
      · exact Or.inl h1
      · obtain ⟨j, hj⟩ := hr s hs
        simp only [hj, Option.getD_some] at e
        refine Or.inr ⟨s, ?_, by rw [hj, e]⟩
        rw [(hfin s (by rw [hj]; rfl)).2]; exact hf

theorem travLoop_spec {w : Wrapper σ} {f0 : Fsa} {U : List σ} (hU : ∀ s, Reach w s → s ∈ U) :
    ∀ (fuel k : Nat) (t : Trav σ) (D : σ → List (Sym × σ)) (E : σ → Bool),
    LI w f0 k t D E → U.length < fuel + k →
    ∃ f N, travLoop w fuel t = some f ∧ Copied w f0 f N := by
  have hlen : ∀ k t D E, LI w f0 k t D E → t.map.length ≤ U.length := by
    intro k t D E h
    have : (t.map.map (·.1)).Subperm U := by
      apply List.subperm_of_subset h.keys
      intro s hs
      apply hU
      apply h.reach
      cases hl : look t.map s with
      | some n => rfl
      | none => exact absurd hs (look_none.1 hl)
    simpa using this.length_le
  intro fuel
  induction fuel with
  | zero =>
    intro k t D E h hk
    exfalso
    have h1 := hlen k t D E h
    have h2 := h.len
    omega
  | succ fuel ih =>
    intro k t D E h hk
    unfold travLoop
    cases hq : t.queue with
    | nil => exact ⟨_, _, rfl, h.copied hq⟩
    | cons s q =>
      obtain ⟨D', E', h'⟩ := h.step hq
      exact ih (k + 1) _ D' E' h' (by omega)

theorem foldl_travStart {w : Wrapper σ} {f0 : Fsa} (l : List σ) :
    ∀ {t : Trav σ} {S : List σ}, TI f0 t.fsa t.map (fun _ => []) (fun _ => false) S →
    (∀ u, (look t.map u).isSome ↔ u ∈ t.queue) → (∀ u, u ∈ t.queue ↔ u ∈ S) → t.queue.Nodup →
    t.map.length = t.queue.length → (t.map.map (·.1)).Nodup → (S ++ l).Nodup →
    TI f0 (l.foldl travStart t).fsa (l.foldl travStart t).map (fun _ => []) (fun _ => false) (S ++ l) ∧
    (∀ u, (look (l.foldl travStart t).map u).isSome ↔ u ∈ (l.foldl travStart t).queue) ∧
    (∀ u, u ∈ (l.foldl travStart t).queue ↔ u ∈ S ++ l) ∧ (l.foldl travStart t).queue.Nodup ∧
    (l.foldl travStart t).map.length = (l.foldl travStart t).queue.length ∧
    ((l.foldl travStart t).map.map (·.1)).Nodup := by
  induction l with
  | nil =>
    intro t S h1 h2 h3 h4 h5 h6 h7
    simp only [List.foldl_nil, List.append_nil]
    exact ⟨h1, h2, h3, h4, h5, h6⟩
  | cons s l ih =>
    intro t S h1 h2 h3 h4 h5 h6 h7
    rw [List.foldl_cons]
    have hsS : s ∉ S := by
      intro hs
      rw [List.nodup_append] at h7
      exact h7.2.2 s hs s (List.mem_cons_self ..) rfl
    have hsq : s ∉ t.queue := fun hq => hsS ((h3 s).1 hq)
    have hsn : look t.map s = none := by
      cases hl : look t.map s with
      | none => rfl
      | some n => exact absurd ((h2 s).1 (by rw [hl]; rfl)) hsq
    have ht : travStart t s = ⟨(t.fsa.addState true).2, (s, t.fsa.size) :: t.map, s :: t.queue⟩ := rfl
    have := ih (t := travStart t s) (S := S ++ [s]) (by rw [ht]; exact h1.new hsn true) ?_ ?_ ?_ ?_ ?_ ?_
    · simpa using this
    · intro u
      rw [ht]
      show (look ((s, t.fsa.size) :: t.map) u).isSome ↔ u ∈ s :: t.queue
      rw [look_cons, List.mem_cons, ← h2 u]
      by_cases e : s = u
      · simp [e]
      · simp [e, Ne.symm e]
    · intro u
      rw [ht]
      show u ∈ s :: t.queue ↔ _
      simp only [List.mem_cons, List.mem_append, List.mem_singleton, h3 u]; simp only [List.not_mem_nil, or_false]; tauto
    · rw [ht]; exact List.nodup_cons.2 ⟨hsq, h4⟩
    · rw [ht]; simp [h5]
    · rw [ht]
      show (s :: t.map.map (·.1)).Nodup
      exact List.nodup_cons.2 ⟨look_none.1 hsn, h6⟩
    · simpa using h7

/-- The traversal ends, and its result is the old automaton together with a copy of the reachable
part of the wrapped one. -/
theorem traverse_spec {w : Wrapper σ} {f0 : Fsa} {U : List σ} {fuel : Nat} (h0 : Wf f0)
    (hnd : w.starts.Nodup) (hU : ∀ s, Reach w s → s ∈ U) (hf : U.length < fuel) :
    ∃ f N, traverse fuel w f0 = some f ∧ Copied w f0 f N := by
  have hinit : TI f0 f0 ([] : List (σ × Nat)) (fun _ => []) (fun _ => false) [] := by
    refine ⟨h0, Nat.le_refl _, ?_, ?_, ?_, ?_, ?_, ?_, ?_, ?_, ?_, ?_⟩
    · simp [look]
    · simp [look]
    · intro n h1 h2; omega
    · intro p _; rfl
    · simp [look]
    · simp
    · simp
    · simp
    · simp
    · simp
  have := foldl_travStart (w := w) (f0 := f0) w.starts (t := ⟨f0, [], []⟩) (S := []) hinit
    (by simp [look]) (by simp) (by simp) (by simp) (by simp) (by simpa using hnd)
  obtain ⟨h1, h2, h3, h4, h5, h6⟩ := this
  refine travLoop_spec hU fuel 0 _ (fun _ => []) (fun _ => false) ⟨by simpa using h1, h4, ?_, ?_, ?_, ?_, h6⟩ (by omega)
  · intro u hu; exact ⟨(h2 u).2 hu, rfl, rfl⟩
  · intro u hu hnq; exact absurd ((h2 u).1 hu) hnq
  · intro u hu; exact Reach.start (by simpa using (h3 u).1 ((h2 u).1 hu))
  · rw [h5]; rfl

/-! ### Paths -/

/-- Paths in the wrapped automaton. -/
inductive WPath (w : Wrapper σ) : σ → List Sym → σ → Prop
  | nil {s} : WPath w s [] s
  | cons {s x u l v} : (x, u) ∈ w.arcs s → WPath w u l v → WPath w s (x :: l) v

theorem WPath.reach {w : Wrapper σ} {s : σ} {l : List Sym} {u : σ} (h : WPath w s l u) (hs : Reach w s) :
    Reach w u := by
  induction h with
  | nil => exact hs
  | cons ha _ ih => exact ih (hs.step ha)

theorem Copied.mem_arcs {w : Wrapper σ} {f0 f : Fsa} {N : σ → Nat} (h : Copied w f0 f N) {s : σ}
    (hs : Reach w s) {x : Sym} {q : Nat} :
    (x, q) ∈ f.arcs (N s) ↔ ∃ u, (x, u) ∈ w.arcs s ∧ N u = q := by
  rw [(h.arcs s hs).mem_iff, List.mem_map]
  constructor
  · rintro ⟨⟨y, u⟩, ha, e⟩
    simp only [Prod.mk.injEq] at e
    obtain ⟨rfl, rfl⟩ := e
    exact ⟨u, ha, rfl⟩
  · rintro ⟨u, ha, rfl⟩
    exact ⟨(x, u), ha, rfl⟩

theorem Copied.path {w : Wrapper σ} {f0 f : Fsa} {N : σ → Nat} (h : Copied w f0 f N) {l : List Sym} :
    ∀ {s : σ} (hs : Reach w s) {q : Nat},
    Path f (N s) l q ↔ ∃ u, WPath w s l u ∧ N u = q := by
  induction l with
  | nil =>
    intro s hs q
    constructor
    · intro hp; cases hp; exact ⟨s, .nil, rfl⟩
    · rintro ⟨u, hu, rfl⟩; cases hu; exact .nil
  | cons x l ih =>
    intro s hs q
    constructor
    · intro hp
      cases hp with
      | cons ha hp =>
        obtain ⟨u, hu, rfl⟩ := (h.mem_arcs hs).1 ha
        obtain ⟨v, hv, rfl⟩ := (ih (hs.step hu)).1 hp
        exact ⟨v, .cons hu hv, rfl⟩
    · rintro ⟨v, hv, rfl⟩
      cases hv with
      | cons ha hv =>
        exact .cons ((h.mem_arcs hs).2 ⟨_, ha, rfl⟩) ((ih (hs.step ha)).2 ⟨v, hv, rfl⟩)

/-- Paths of the old automaton stay. -/
theorem Copied.path_old {w : Wrapper σ} {f0 f : Fsa} {N : σ → Nat} (h : Copied w f0 f N) (h0 : Wf f0)
    {l : List Sym} : ∀ {p : Nat} (hp : p < f0.size) {q : Nat}, Path f p l q ↔ Path f0 p l q := by
  induction l with
  | nil =>
    intro p hp q
    constructor <;> (intro h'; cases h'; exact .nil)
  | cons x l ih =>
    intro p hp q
    constructor
    · intro h'
      cases h' with
      | cons ha h' =>
        rw [h.old p hp] at ha
        exact .cons ha ((ih (h0.dest _ _ _ ha)).1 h')
    · intro h'
      cases h' with
      | cons ha h' =>
        exact .cons (by rw [h.old p hp]; exact ha) ((ih (h0.dest _ _ _ ha)).2 h')

theorem Path.lt {a : Fsa} (h : Wf a) {p : Nat} {l : List Sym} {q : Nat} (hp : Path a p l q) (hlt : p < a.size) :
    q < a.size := by
  induction hp with
  | nil => exact hlt
  | cons ha _ ih => exact ih (h.dest _ _ _ ha)

/-- The words of the wrapped automaton. -/
def WRaw (w : Wrapper σ) (l : List Sym) : Prop := ∃ s ∈ w.starts, ∃ u, w.final u = true ∧ WPath w s l u

/-- The words of the result: those of the old automaton and those of the wrapped one. -/
theorem Copied.raw {w : Wrapper σ} {f0 f : Fsa} {N : σ → Nat} (h : Copied w f0 f N) (h0 : Wf f0)
    (l : List Sym) : Raw f l ↔ Raw f0 l ∨ WRaw w l := by
  constructor
  · rintro ⟨p, hp, q, hq, hpath⟩
    rw [h.starts] at hp
    rw [h.ends] at hq
    rcases hp with hp | ⟨s, hs, rfl⟩
    · have hlt := h0.start p hp
      rw [h.path_old h0 hlt] at hpath
      have hqlt := Path.lt h0 hpath hlt
      rcases hq with hq | ⟨u, hu, hf, rfl⟩
      · exact Or.inl ⟨p, hp, q, hq, hpath⟩
      · have := h.vals u hu; omega
    · have hs' := Reach.start hs
      obtain ⟨u, hu, rfl⟩ := (h.path hs').1 hpath
      have hur := hu.reach hs'
      rcases hq with hq | ⟨v, hv, hf, e⟩
      · have h1 := h.vals u hur
        have h2 := h0.end_ _ hq; omega
      · have := h.inj v u hv hur e
        subst this
        exact Or.inr ⟨s, hs, v, hf, hu⟩
  · rintro (⟨p, hp, q, hq, hpath⟩ | ⟨s, hs, u, hf, hpath⟩)
    · exact ⟨p, (h.starts p).2 (Or.inl hp), q, (h.ends q).2 (Or.inl hq),
        (h.path_old h0 (h0.start p hp)).2 hpath⟩
    · have hs' := Reach.start hs
      exact ⟨N s, (h.starts _).2 (Or.inr ⟨s, hs, rfl⟩), N u,
        (h.ends _).2 (Or.inr ⟨u, hpath.reach hs', hf, rfl⟩), (h.path hs').2 ⟨u, hpath, rfl⟩⟩

theorem raw_empty (l : List Sym) : ¬ Raw .empty l := by
  rintro ⟨p, hp, _⟩; simp [Fsa.empty] at hp

end Verif.Fsa
