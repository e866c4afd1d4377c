import Verif.Chart.Model
import Mathlib.Data.List.Basic
import Mathlib.Data.List.Nodup
import Mathlib.Data.List.Perm.Subperm

/-!
Lemmas about the chart parser.
-/
set_option linter.unusedVariables false
set_option linter.unusedSimpArgs false

namespace Verif.Chart

variable {C I : Type} [DecidableEq I]

/-- What tells edges of the lattice apart. -/
def Edge.key (e : Edge C I) : Nat × Nat × I := (e.src, e.tgt, e.item)

/-- `st'` has more edges than `st`, all of them with property `P`, all of them on the agenda, and different from those
before. -/
def Ext (P : Edge C I → Prop) (st st' : State C I) : Prop :=
  ∃ new, st'.edges = st.edges ++ new ∧ st'.agenda = st.agenda ++ List.range' st.edges.length new.length ∧
    st'.marked = st.marked ∧ ((new.map Edge.key).Nodup ∧ ∀ e ∈ st.edges, ∀ e' ∈ new, e.key ≠ e'.key) ∧ ∀ e ∈ new, P e

theorem Ext.refl (P : Edge C I → Prop) (st : State C I) : Ext P st st := ⟨[], by simp⟩

theorem Ext.trans {P : Edge C I → Prop} {a b c : State C I} (h1 : Ext P a b) (h2 : Ext P b c) : Ext P a c := by
  obtain ⟨n1, e1, a1, m1, f1, p1⟩ := h1
  obtain ⟨n2, e2, a2, m2, f2, p2⟩ := h2
  refine ⟨n1 ++ n2, by rw [e2, e1, List.append_assoc], ?_, by rw [m2, m1], ⟨?_, ?_⟩, ?_⟩
  · rw [a2, a1, e1, List.append_assoc, List.length_append, List.length_append, List.range'_append_1]
  · rw [List.map_append, List.nodup_append]
    refine ⟨f1.1, f2.1, ?_⟩
    intro k hk k' hk'
    obtain ⟨e, he, rfl⟩ := List.mem_map.1 hk
    obtain ⟨e', he', rfl⟩ := List.mem_map.1 hk'
    exact f2.2 e (by rw [e1]; simp [he]) e' he'
  · intro e he e' he'
    rcases List.mem_append.1 he' with h | h
    · exact f1.2 e he e' h
    · exact f2.2 e (by rw [e1]; simp [he]) e' h
  · intro e he
    rcases List.mem_append.1 he with h | h
    · exact p1 e h
    · exact p2 e h

theorem Ext.mono {P Q : Edge C I → Prop} (h : ∀ e, P e → Q e) {a b : State C I} (h1 : Ext P a b) : Ext Q a b := by
  obtain ⟨n1, e1, a1, m1, f1, p1⟩ := h1
  exact ⟨n1, e1, a1, m1, f1, fun e he => h e (p1 e he)⟩

theorem Ext.get {P : Edge C I → Prop} {a b : State C I} (h : Ext P a b) {i : Nat} {e : Edge C I} (he : a.edges[i]? = some e) :
    b.edges[i]? = some e := by
  obtain ⟨n, e1, _⟩ := h
  rw [e1, List.getElem?_append_left (List.getElem?_eq_some_iff.1 he).1, he]

/-- The chart has an edge for the category. -/
def Has (p : Params C I) (st : State C I) (u v : Nat) (c : C) : Prop :=
  ∃ e ∈ st.edges, e.src = u ∧ e.tgt = v ∧ e.item = p.toItem c

theorem Ext.has {P : Edge C I → Prop} {p : Params C I} {a b : State C I} (h : Ext P a b) {u v : Nat} {c : C}
    (hh : Has p a u v c) : Has p b u v c := by
  obtain ⟨n, e1, _⟩ := h
  obtain ⟨e, he, hk⟩ := hh
  exact ⟨e, by rw [e1]; simp [he], hk⟩

theorem fold_ext {α : Type} {P : Edge C I → Prop} (f : State C I → α → State C I) (l : List α)
    (h : ∀ st, ∀ x ∈ l, Ext P st (f st x)) (st : State C I) : Ext P st (l.foldl f st) := by
  induction l generalizing st with
  | nil => exact Ext.refl _ _
  | cons x l ih =>
    exact (h st x (by simp)).trans (ih (fun st y hy => h st y (by simp [hy])) _)

theorem addEdge_ext (p : Params C I) (u v : Nat) (links : List Nat) (s : Int) (st : State C I) (r : C × Int) :
    Ext (fun e => e = ⟨u, v, p.toItem r.1, r.1, true⟩ ∧ ¬ Has p st u v r.1) st (addEdge p u v links s st r) := by
  unfold addEdge
  split
  · split
    · split
      · exact Ext.refl _ _
      · exact ⟨[], by simp⟩
    · rename_i h
      have hn : ∀ e' ∈ st.edges, ¬ (e'.src = u ∧ e'.tgt = v ∧ e'.item = p.toItem r.1) := by
        rintro e' he' ⟨h1, h2, h3⟩
        rw [List.findIdx?_eq_none_iff] at h
        have := h e' he'
        simp [h1, h2, h3] at this
      refine ⟨[⟨u, v, p.toItem r.1, r.1, true⟩], rfl, by simp, rfl, ⟨by simp, ?_⟩, ?_⟩
      · intro e he e' he' hk
        simp only [List.mem_singleton] at he'
        subst he'
        simp only [Edge.key, Prod.mk.injEq] at hk
        exact hn e he hk
      intro e he
      refine ⟨by simpa using he, ?_⟩
      rintro ⟨e', he', h1, h2, h3⟩
      exact hn e' he' ⟨h1, h2, h3⟩
  · exact Ext.refl _ _

theorem addEdge_has {p : Params C I} (ha : ∀ a b, p.allowed a b = true) (u v : Nat) (links : List Nat) (s : Int)
    (st : State C I) (r : C × Int) : Has p (addEdge p u v links s st r) u v r.1 := by
  unfold addEdge
  rw [if_pos (ha _ _)]
  split
  · rename_i i h
    obtain ⟨hi, hp, _⟩ := List.findIdx?_eq_some_iff_getElem.1 h
    simp only [Bool.and_eq_true, beq_iff_eq] at hp
    have : Has p st u v r.1 := ⟨st.edges[i], by simp, hp.1.1, hp.1.2, hp.2⟩
    split
    · exact this
    · exact this
  · exact ⟨⟨u, v, p.toItem r.1, r.1, true⟩, by simp, rfl, rfl, rfl⟩

/-- `D` holds of what the rules give from one edge. -/
theorem rules_ext {p : Params C I} {D : Nat → Nat → C → Prop} (u v : Nat) (links : List Nat) (s : Int)
    (rs : List (C × Int)) (h : ∀ r ∈ rs, D u v r.1) (st : State C I) :
    Ext (fun e => D e.src e.tgt e.cat ∧ e.item = p.toItem e.cat) st (rs.foldl (addEdge p u v links s) st) := by
  apply fold_ext
  intro st r hr
  refine (addEdge_ext p u v links s st r).mono ?_
  rintro e ⟨rfl, _⟩
  exact ⟨h r hr, rfl⟩

theorem rules_has {p : Params C I} (ha : ∀ a b, p.allowed a b = true) (u v : Nat) (links : List Nat) (s : Int)
    (rs : List (C × Int)) (st : State C I) : ∀ r ∈ rs, Has p (rs.foldl (addEdge p u v links s) st) u v r.1 := by
  induction rs generalizing st with
  | nil => simp
  | cons x rs ih =>
    intro r hr
    rw [List.foldl_cons]
    rcases List.mem_cons.1 hr with rfl | hr
    · exact (rules_ext (p := p) (D := fun _ _ _ => True) u v links s rs (fun _ _ => trivial) _).has (addEdge_has ha u v links s st r)
    · exact ih _ r hr

/-- `D` is closed under the rules. -/
structure Closed (p : Params C I) (D : Nat → Nat → C → Prop) : Prop where
  unary : ∀ u v a r, D u v a → r ∈ p.grammar.unary a → D u v r.1
  binary : ∀ u v w x a b r, D u v a → D w x b → (v = p.before w ∨ p.after v = w) → r ∈ p.grammar.binary a b → D u x r.1

/-- The edges that were put on the agenda have property `D`. -/
structure Good (p : Params C I) (D : Nat → Nat → C → Prop) (n : Nat) (st : State C I) : Prop where
  agenda : ∀ i ∈ st.agenda, ∃ e, st.edges[i]? = some e ∧ D e.src e.tgt e.cat
  marked : ∀ i ∈ st.marked, ∃ e, st.edges[i]? = some e ∧ D e.src e.tgt e.cat
  added : ∀ i e, n ≤ i → st.edges[i]? = some e → D e.src e.tgt e.cat ∧ e.item = p.toItem e.cat

theorem Good.ext {p : Params C I} {D : Nat → Nat → C → Prop} {n : Nat} {st st' : State C I} (h : Good p D n st)
    (hx : Ext (fun e => D e.src e.tgt e.cat ∧ e.item = p.toItem e.cat) st st') : Good p D n st' := by
  have hx' := hx
  obtain ⟨new, e1, a1, m1, f1, p1⟩ := hx
  refine ⟨?_, ?_, ?_⟩
  · intro i hi
    rw [a1] at hi
    rcases List.mem_append.1 hi with hi | hi
    · obtain ⟨e, he, hd⟩ := h.agenda i hi
      exact ⟨e, hx'.get he, hd⟩
    · rw [List.mem_range'_1] at hi
      have hl : i - st.edges.length < new.length := by omega
      refine ⟨new[i - st.edges.length], ?_, (p1 _ (by simp)).1⟩
      rw [e1, List.getElem?_append_right hi.1, List.getElem?_eq_getElem hl]
  · intro i hi
    rw [m1] at hi
    obtain ⟨e, he, hd⟩ := h.marked i hi
    exact ⟨e, hx'.get he, hd⟩
  · intro i e hn hi
    by_cases hl : i < st.edges.length
    · rw [e1, List.getElem?_append_left hl] at hi
      exact h.added i e hn hi
    · rw [e1, List.getElem?_append_right (by omega)] at hi
      exact p1 e (List.mem_of_getElem? hi)

theorem applyUnary_ext {p : Params C I} {D : Nat → Nat → C → Prop} (hc : Closed p D) {st : State C I} {i : Nat} {e : Edge C I}
    (he : st.edges[i]? = some e) (hd : D e.src e.tgt e.cat) :
    Ext (fun e => D e.src e.tgt e.cat ∧ e.item = p.toItem e.cat) st (applyUnary p st i) := by
  simp only [applyUnary, he]
  exact rules_ext _ _ _ _ _ (fun r hr => hc.unary _ _ _ r hd hr) _

theorem applyPair_ext {p : Params C I} {D : Nat → Nat → C → Prop} (hc : Closed p D) (min : Option Int) {st : State C I}
    {i j : Nat} {e f : Edge C I} (he : st.edges[i]? = some e) (hf : st.edges[j]? = some f) (hd : D e.src e.tgt e.cat)
    (hd' : D f.src f.tgt f.cat) (ha : e.tgt = p.before f.src ∨ p.after e.tgt = f.src) :
    Ext (fun e => D e.src e.tgt e.cat ∧ e.item = p.toItem e.cat) st (applyPair p min st i j) := by
  unfold applyPair
  split
  · exact Ext.refl _ _
  · simp only [he, hf]
    exact rules_ext _ _ _ _ _ (fun r hr => hc.binary _ _ _ _ _ _ r hd hd' ha hr) _

theorem mem_markedIn {st : State C I} {v j : Nat} : j ∈ st.markedIn v ↔ j ∈ st.marked ∧ ∃ f, st.edges[j]? = some f ∧ f.tgt = v := by
  unfold State.markedIn
  rw [List.mem_filter]
  cases h : st.edges[j]? with
  | none => simp [h]
  | some f => simp [h]

theorem mem_markedOut {st : State C I} {v j : Nat} : j ∈ st.markedOut v ↔ j ∈ st.marked ∧ ∃ f, st.edges[j]? = some f ∧ f.src = v := by
  unfold State.markedOut
  rw [List.mem_filter]
  cases h : st.edges[j]? with
  | none => simp [h]
  | some f => simp [h]

/-- A fold over steps each of which extends, under a condition that is kept. -/
theorem fold_ext' {α : Type} {P : Edge C I → Prop} (f : State C I → α → State C I) (l : List α) (st0 : State C I)
    (h : ∀ st, Ext P st0 st → ∀ x ∈ l, Ext P st (f st x)) : ∀ st, Ext P st0 st → Ext P st (l.foldl f st) := by
  induction l with
  | nil => intro st _; exact Ext.refl _ _
  | cons x l ih =>
    intro st hst
    have h1 := h st hst x (by simp)
    exact h1.trans (ih (fun st hs y hy => h st hs y (by simp [hy])) _ (hst.trans h1))

theorem applyBinary_ext {p : Params C I} {D : Nat → Nat → C → Prop} (hc : Closed p D) (min : Option Int) {n : Nat}
    {st : State C I} (hg : Good p D n st) {i : Nat} {e : Edge C I} (he : st.edges[i]? = some e) (hd : D e.src e.tgt e.cat) :
    Ext (fun e => D e.src e.tgt e.cat ∧ e.item = p.toItem e.cat) st (applyBinary p min st i) := by
  simp only [applyBinary, he]
  have h1 : Ext (fun e => D e.src e.tgt e.cat ∧ e.item = p.toItem e.cat) st
      ((st.markedIn (p.before e.src)).foldl (fun st j => applyPair p min st j i) st) := by
    refine fold_ext' _ _ st ?_ st (Ext.refl _ _)
    intro st1 hx j hj
    obtain ⟨hj1, f, hf, hft⟩ := mem_markedIn.1 hj
    obtain ⟨f', hf', hdf⟩ := hg.marked j hj1
    rw [hf] at hf'; cases hf'
    exact applyPair_ext hc min (hx.get hf) (hx.get he) hdf hd (.inl hft)
  refine h1.trans ?_
  have hg1 := hg.ext h1
  have he1 := h1.get he
  generalize (st.markedIn (p.before e.src)).foldl (fun st j => applyPair p min st j i) st = st1 at *
  refine fold_ext' _ _ st1 ?_ st1 (Ext.refl _ _)
  intro st2 hx j hj
  obtain ⟨hj1, f, hf, hft⟩ := mem_markedOut.1 hj
  obtain ⟨f', hf', hdf⟩ := hg1.marked j hj1
  rw [hf] at hf'; cases hf'
  exact applyPair_ext hc min (hx.get he1) (hx.get hf) hd hdf (.inr hft.symm)

/-- Unary and binary rules together. -/
def applyRules (p : Params C I) (min : Option Int) (st : State C I) (i : Nat) : State C I :=
  applyBinary p min (applyUnary p st i) i

theorem applyRules_ext {p : Params C I} {D : Nat → Nat → C → Prop} (hc : Closed p D) (min : Option Int) {n : Nat}
    {st : State C I} (hg : Good p D n st) {i : Nat} {e : Edge C I} (he : st.edges[i]? = some e) (hd : D e.src e.tgt e.cat) :
    Ext (fun e => D e.src e.tgt e.cat ∧ e.item = p.toItem e.cat) st (applyRules p min st i) := by
  have h1 := applyUnary_ext hc he hd
  exact h1.trans (applyBinary_ext hc min (hg.ext h1) (h1.get he) hd)

theorem process_good {p : Params C I} {D : Nat → Nat → C → Prop} (hc : Closed p D) (min : Option Int) {n : Nat}
    {st : State C I} (hg : Good p D n st) {i : Nat} {e : Edge C I} (he : st.edges[i]? = some e) (hd : D e.src e.tgt e.cat) :
    Good p D n (process p min st i) := by
  have h1 := applyRules_ext hc min hg he hd
  have h2 := hg.ext h1
  refine ⟨h2.agenda, ?_, h2.added⟩
  intro k hk
  simp only [process] at hk
  rcases List.mem_append.1 hk with hk | hk
  · exact h2.marked k hk
  · simp only [List.mem_singleton] at hk; subst hk; exact ⟨e, h1.get he, hd⟩

theorem erase_good {p : Params C I} {D : Nat → Nat → C → Prop} {n : Nat} {st : State C I} (hg : Good p D n st) (k : Nat) :
    Good p D n { st with agenda := st.agenda.eraseIdx k } :=
  ⟨fun i hi => hg.agenda i (List.mem_of_mem_eraseIdx hi), hg.marked, hg.added⟩

theorem go_good {p : Params C I} {D : Nat → Nat → C → Prop} (hc : Closed p D) {pick : Nat → Nat} {n : Nat} : ∀ (fuel turns : Nat)
    (level : Level) (levels : List Level) (st st' : State C I), Good p D n st →
    go p pick fuel turns level levels st = some st' → Good p D n st' ∧ ∃ new, st'.edges = st.edges ++ new := by
  intro fuel
  induction fuel with
  | zero => intro turns level levels st st' _ h; simp [go] at h
  | succ fuel ih =>
    intro turns level levels st st' hg h
    unfold go at h
    cases e1 : st.agenda[pick turns % st.agenda.length]? with
    | none => simp only [e1, Option.some.injEq] at h; subst h; exact ⟨hg, [], by simp⟩
    | some i =>
      simp only [e1] at h
      have hg1 := erase_good hg (pick turns % st.agenda.length)
      obtain ⟨e, he, hd⟩ := hg.agenda i (List.mem_of_getElem? e1)
      have hp : ∀ min, Good p D n (process p min { st with agenda := st.agenda.eraseIdx (pick turns % st.agenda.length) } i) ∧
          ∃ new, (process p min { st with agenda := st.agenda.eraseIdx (pick turns % st.agenda.length) } i).edges = st.edges ++ new := by
        intro min
        refine ⟨process_good hc min hg1 he hd, ?_⟩
        obtain ⟨new, h1, _⟩ := applyRules_ext hc min hg1 (i := i) he hd
        exact ⟨new, h1⟩
      have done : ∀ level levels, (if below (State.score { st with agenda := st.agenda.eraseIdx (pick turns % st.agenda.length) } i)
            level.min = true then
              go p pick fuel (turns + 1) level levels { st with agenda := st.agenda.eraseIdx (pick turns % st.agenda.length) }
            else go p pick fuel (turns + 1) level levels
              (process p level.min { st with agenda := st.agenda.eraseIdx (pick turns % st.agenda.length) } i)) = some st' →
          Good p D n st' ∧ ∃ new, st'.edges = st.edges ++ new := by
        intro level levels h
        split at h
        · have := ih _ _ _ _ _ hg1 h
          exact this
        · obtain ⟨h1, new, h2⟩ := hp level.min
          obtain ⟨h3, new', h4⟩ := ih _ _ _ _ _ h1 h
          exact ⟨h3, new ++ new', by rw [h4, h2, List.append_assoc]⟩
      split at h
      · split at h
        · simp only [Option.some.injEq] at h; subst h; exact ⟨hg1, [], by simp⟩
        · exact done _ _ h
      · exact done _ _ h

/-! ### Completeness -/

theorem fold_has {α : Type} {P : Edge C I → Prop} {p : Params C I} (f : State C I → α → State C I) {u v : Nat} {c : C} {x : α}
    (l : List α) (st0 : State C I) (h : ∀ st, Ext P st0 st → ∀ x ∈ l, Ext P st (f st x)) (hx : x ∈ l)
    (hh : ∀ st, Ext P st0 st → Has p (f st x) u v c) : ∀ st, Ext P st0 st → Has p (l.foldl f st) u v c := by
  induction l with
  | nil => cases hx
  | cons y l ih =>
    intro st hst
    have h1 := h st hst y (by simp)
    have h' : ∀ st, Ext P st0 st → ∀ x ∈ l, Ext P st (f st x) := fun st hs y hy => h st hs y (by simp [hy])
    rw [List.foldl_cons]
    rcases List.mem_cons.1 hx with rfl | hx
    · exact (fold_ext' f l st0 h' _ (hst.trans h1)).has (hh st hst)
    · exact ih h' hx _ (hst.trans h1)

theorem applyPair_has {p : Params C I} (ha : ∀ a b, p.allowed a b = true) {st : State C I} {i j : Nat} {e f : Edge C I}
    (he : st.edges[i]? = some e) (hf : st.edges[j]? = some f) {r : C × Int} (hr : r ∈ p.grammar.binary e.cat f.cat) :
    Has p (applyPair p none st i j) e.src f.tgt r.1 := by
  unfold applyPair
  simp only [below, Bool.or_self, Bool.false_eq_true, if_false, he, hf]
  exact rules_has ha _ _ _ _ _ _ r hr

/-- The marked edges have been dealt with: what the rules give from them is in the chart. -/
structure Done (p : Params C I) (st : State C I) : Prop where
  unary : ∀ i ∈ st.marked, ∀ e, st.edges[i]? = some e → ∀ r ∈ p.grammar.unary e.cat, Has p st e.src e.tgt r.1
  binary : ∀ i ∈ st.marked, ∀ j ∈ st.marked, ∀ e f, st.edges[i]? = some e → st.edges[j]? = some f →
    e.tgt = p.before f.src → p.after e.tgt = f.src → ∀ r ∈ p.grammar.binary e.cat f.cat, Has p st e.src f.tgt r.1

theorem process_done {p : Params C I} (ha : ∀ a b, p.allowed a b = true) {D : Nat → Nat → C → Prop} (hc : Closed p D) {n : Nat}
    {st : State C I} (hg : Good p D n st) (hd0 : Done p st) {i : Nat} {e : Edge C I} (he : st.edges[i]? = some e)
    (hd : D e.src e.tgt e.cat) (hlt : e.src < e.tgt) (hb : ∀ v, p.before v ≤ v) : Done p (process p none st i) := by
  have hrules := applyRules_ext hc none hg he hd
  obtain ⟨new, hnew, _, hmark, _⟩ := id hrules
  have hun := applyUnary_ext hc he hd
  have hg1 := hg.ext hun
  have he1 := hun.get he
  have hb1 := applyBinary_ext hc none hg1 he1 hd
  have marked1 : (applyUnary p st i).marked = st.marked := by obtain ⟨_, _, _, h, _⟩ := hun; exact h
  -- the first of the two folds
  have hf1 : Ext (fun e => D e.src e.tgt e.cat ∧ e.item = p.toItem e.cat) (applyUnary p st i)
      (((applyUnary p st i).markedIn (p.before e.src)).foldl (fun st j => applyPair p none st j i) (applyUnary p st i)) ∧
      ∀ st1, Ext (fun e => D e.src e.tgt e.cat ∧ e.item = p.toItem e.cat) (applyUnary p st i) st1 →
        ∀ j ∈ (applyUnary p st i).markedIn (p.before e.src),
          Ext (fun e => D e.src e.tgt e.cat ∧ e.item = p.toItem e.cat) st1 (applyPair p none st1 j i) := by
    have key : ∀ st1, Ext (fun e => D e.src e.tgt e.cat ∧ e.item = p.toItem e.cat) (applyUnary p st i) st1 →
        ∀ j ∈ (applyUnary p st i).markedIn (p.before e.src),
          Ext (fun e => D e.src e.tgt e.cat ∧ e.item = p.toItem e.cat) st1 (applyPair p none st1 j i) := by
      intro st1 hx j hj
      obtain ⟨hj1, f, hf, hft⟩ := mem_markedIn.1 hj
      obtain ⟨f', hf', hdf⟩ := hg1.marked j hj1
      rw [hf] at hf'; cases hf'
      exact applyPair_ext hc none (hx.get hf) (hx.get he1) hdf hd (.inl hft)
    exact ⟨fold_ext' _ _ _ key _ (Ext.refl _ _), key⟩
  have hbin : applyRules p none st i = (State.markedOut (((applyUnary p st i).markedIn (p.before e.src)).foldl
      (fun st j => applyPair p none st j i) (applyUnary p st i)) (p.after e.tgt)).foldl (fun st j => applyPair p none st i j)
      (((applyUnary p st i).markedIn (p.before e.src)).foldl (fun st j => applyPair p none st j i) (applyUnary p st i)) := by
    simp only [applyRules, applyBinary, he1]
  have hmid := hf1.1
  have marked2 : (((applyUnary p st i).markedIn (p.before e.src)).foldl (fun st j => applyPair p none st j i)
      (applyUnary p st i)).marked = st.marked := by
    obtain ⟨_, _, _, h, _⟩ := hmid; rw [h, marked1]
  have hgm := hg1.ext hmid
  have hem := hmid.get he1
  have hf2 : ∀ st1, Ext (fun e => D e.src e.tgt e.cat ∧ e.item = p.toItem e.cat) (((applyUnary p st i).markedIn (p.before e.src)).foldl
      (fun st j => applyPair p none st j i) (applyUnary p st i)) st1 → ∀ j ∈ State.markedOut (((applyUnary p st i).markedIn
        (p.before e.src)).foldl (fun st j => applyPair p none st j i) (applyUnary p st i)) (p.after e.tgt),
        Ext (fun e => D e.src e.tgt e.cat ∧ e.item = p.toItem e.cat) st1 (applyPair p none st1 i j) := by
    intro st1 hx j hj
    obtain ⟨hj1, f, hf, hft⟩ := mem_markedOut.1 hj
    obtain ⟨f', hf', hdf⟩ := hgm.marked j hj1
    rw [hf] at hf'; cases hf'
    exact applyPair_ext hc none (hx.get hem) (hx.get hf) hd hdf (.inr hft.symm)
  have hlast := fold_ext' _ _ _ hf2 _ (Ext.refl _ _)
  -- from a state with the edges to the final one
  have lift : ∀ {u v : Nat} {c : C}, Has p (applyRules p none st i) u v c → Has p (process p none st i) u v c := fun h => h
  have getE : ∀ {k : Nat} {x : Edge C I}, k ∈ st.marked ∨ k = i → (process p none st i).edges[k]? = some x →
      st.edges[k]? = some x := by
    intro k x hk hx
    have hl : k < st.edges.length := by
      rcases hk with hk | rfl
      · obtain ⟨y, hy, _⟩ := hg.marked k hk
        exact (List.getElem?_eq_some_iff.1 hy).1
      · exact (List.getElem?_eq_some_iff.1 he).1
    have : (process p none st i).edges = st.edges ++ new := hnew
    rw [this, List.getElem?_append_left hl] at hx
    exact hx
  have hm : ∀ {k : Nat}, k ∈ (process p none st i).marked → k ∈ st.marked ∨ k = i := by
    intro k hk
    have : (process p none st i).marked = (applyRules p none st i).marked ++ [i] := rfl
    rw [this, hmark] at hk
    simpa using hk
  refine ⟨?_, ?_⟩
  · intro k hk x hx r hr
    have hx' := getE (hm hk) hx
    apply lift
    rcases hm hk with hk | rfl
    · exact hrules.has (hd0.unary k hk x hx' r hr)
    · rw [he] at hx'; cases hx'
      apply hb1.has
      simp only [applyUnary, he]
      exact rules_has ha _ _ _ _ _ _ r hr
  · intro k hk l hl x y hx hy h1 h2 r hr
    have hx' := getE (hm hk) hx
    have hy' := getE (hm hl) hy
    apply lift
    rcases hm hk with hk' | rfl
    · rcases hm hl with hl' | rfl
      · exact hrules.has (hd0.binary k hk' l hl' x y hx' hy' h1 h2 r hr)
      · -- the new edge on the right
        rw [he] at hy'; cases hy'
        rw [hbin]
        apply hlast.has
        refine fold_has _ _ (applyUnary p st l) hf1.2 (x := k) ?_ ?_ _ (Ext.refl _ _)
        · exact mem_markedIn.2 ⟨by rw [marked1]; exact hk', x, hun.get hx', h1⟩
        · intro st1 hs
          exact applyPair_has ha (hs.get (hun.get hx')) (hs.get he1) hr
    · rw [he] at hx'; cases hx'
      rcases hm hl with hl' | rfl
      · -- the new edge on the left
        rw [hbin]
        refine fold_has _ _ _ hf2 (x := l) ?_ ?_ _ (Ext.refl _ _)
        · exact mem_markedOut.2 ⟨by rw [marked2]; exact hl', y, hmid.get (hun.get hy'), h2.symm⟩
        · intro st1 hs
          exact applyPair_has ha (hs.get hem) (hs.get (hmid.get (hun.get hy'))) hr
      · rw [he] at hy'; cases hy'
        have := hb e.src
        omega

/-- Every edge that counts is on the agenda or marked. -/
def Live (n : Nat) (ok : Nat → Prop) (st : State C I) : Prop :=
  ∀ i < st.edges.length, (ok i ∨ n ≤ i) → i ∈ st.agenda ∨ i ∈ st.marked

theorem process_live {p : Params C I} {D : Nat → Nat → C → Prop} (hc : Closed p D) (min : Option Int) {n : Nat} {ok : Nat → Prop}
    {st : State C I} {k : Nat} (hg : Good p D n { st with agenda := st.agenda.eraseIdx k }) (hn : n ≤ st.edges.length)
    (hl : Live n ok st) {i : Nat} {e : Edge C I}
    (hi : st.agenda[k]? = some i) (he : st.edges[i]? = some e) (hd : D e.src e.tgt e.cat) :
    Live n ok (process p min { st with agenda := st.agenda.eraseIdx k } i) := by
  obtain ⟨new, h1, h2, h3, _⟩ := applyRules_ext hc min hg (i := i) he hd
  have e1 : (process p min { st with agenda := st.agenda.eraseIdx k } i).edges = st.edges ++ new := h1
  have e2 : (process p min { st with agenda := st.agenda.eraseIdx k } i).agenda =
      st.agenda.eraseIdx k ++ List.range' st.edges.length new.length := h2
  have e3 : (process p min { st with agenda := st.agenda.eraseIdx k } i).marked = st.marked ++ [i] := by
    show (applyRules p min { st with agenda := st.agenda.eraseIdx k } i).marked ++ [i] = _
    rw [h3]
  intro j hj hok
  rw [e1, List.length_append] at hj
  rw [e2, e3]
  by_cases hlen : j < st.edges.length
  · rcases hl j hlen hok with h | h
    · by_cases hji : j = i
      · right; simp [hji]
      · left
        rw [List.mem_append]
        left
        obtain ⟨m, hm⟩ := List.mem_iff_getElem?.1 h
        rw [List.mem_eraseIdx_iff_getElem?]
        refine ⟨m, ?_, hm⟩
        rintro rfl
        rw [hi] at hm; cases hm; exact hji rfl
    · right; simp [h]
  · left
    rw [List.mem_append]
    right
    rw [List.mem_range'_1]; omega

theorem go_done {p : Params C I} (ha : ∀ a b, p.allowed a b = true) {D : Nat → Nat → C → Prop} (hc : Closed p D)
    (hlt : ∀ u v c, D u v c → u < v) (hb : ∀ v, p.before v ≤ v) {pick : Nat → Nat} {n : Nat} {ok : Nat → Prop} (levels : List Level) :
    ∀ (fuel turns : Nat) (st st' : State C I), n ≤ st.edges.length → Good p D n st → Done p st → Live n ok st →
    go p pick fuel turns {} levels st = some st' → Done p st' ∧ Live n ok st' ∧ st'.agenda = [] := by
  intro fuel
  induction fuel with
  | zero => intro turns st st' _ _ _ _ h; simp [go] at h
  | succ fuel ih =>
    intro turns st st' hn hg hd hl h
    unfold go at h
    cases e1 : st.agenda[pick turns % st.agenda.length]? with
    | none =>
      simp only [e1, Option.some.injEq] at h; subst h
      refine ⟨hd, hl, ?_⟩
      rw [List.getElem?_eq_none_iff] at e1
      apply List.eq_nil_of_length_eq_zero
      rcases Nat.eq_zero_or_pos st.agenda.length with h0 | h0
      · exact h0
      · have := Nat.mod_lt (pick turns) h0; omega
    | some i =>
      simp only [e1, Level.passed, below, Bool.false_eq_true, if_false] at h
      obtain ⟨e, he, hde⟩ := hg.agenda i (List.mem_of_getElem? e1)
      have hg1 := erase_good hg (pick turns % st.agenda.length)
      have hd1 : Done p { st with agenda := st.agenda.eraseIdx (pick turns % st.agenda.length) } := ⟨hd.unary, hd.binary⟩
      refine ih _ _ _ ?_ (process_good hc none hg1 he hde) (process_done ha hc hg1 hd1 he hde (hlt _ _ _ hde) hb)
        (process_live hc none hg1 hn hl e1 he hde) h
      obtain ⟨new, h1, _⟩ := applyRules_ext hc none hg1 (i := i) he hde
      have : (process p none { st with agenda := st.agenda.eraseIdx (pick turns % st.agenda.length) } i).edges = st.edges ++ new := h1
      rw [this, List.length_append]
      omega

/-! ### Termination -/

theorem go_ends {p : Params C I} {D : Nat → Nat → C → Prop} (hc : Closed p D) {pick : Nat → Nat} {n : Nat} {keys : List (Nat × Nat × I)}
    (hk : ∀ u v c, D u v c → (u, v, p.toItem c) ∈ keys) : ∀ (fuel turns : Nat) (level : Level) (levels : List Level) (st : State C I),
    Good p D n st → n ≤ st.edges.length → ((st.edges.drop n).map Edge.key).Nodup →
    st.agenda.length + keys.length < fuel + (st.edges.length - n) → (go p pick fuel turns level levels st).isSome := by
  have bound : ∀ st : State C I, Good p D n st → ((st.edges.drop n).map Edge.key).Nodup → st.edges.length - n ≤ keys.length := by
    intro st hg hnd
    have : (st.edges.drop n).map Edge.key ⊆ keys := by
      intro k hk'
      obtain ⟨e, he, rfl⟩ := List.mem_map.1 hk'
      obtain ⟨m, hm⟩ := List.mem_iff_getElem?.1 he
      rw [List.getElem?_drop] at hm
      obtain ⟨h1, h2⟩ := hg.added _ e (by omega) hm
      have := hk _ _ _ h1
      rwa [← h2] at this
    have := (List.Nodup.subperm hnd this).length_le
    simpa using this
  intro fuel
  induction fuel with
  | zero =>
    intro turns level levels st hg hn hnd hf
    have := bound st hg hnd
    omega
  | succ fuel ih =>
    intro turns level levels st hg hn hnd hf
    unfold go
    cases e1 : st.agenda[pick turns % st.agenda.length]? with
    | none => simp
    | some i =>
      simp only
      obtain ⟨e, he, hde⟩ := hg.agenda i (List.mem_of_getElem? e1)
      have hg1 := erase_good hg (pick turns % st.agenda.length)
      have hlt := (List.getElem?_eq_some_iff.1 e1).1
      have hlen : (st.agenda.eraseIdx (pick turns % st.agenda.length)).length = st.agenda.length - 1 := by
        rw [List.length_eraseIdx, if_pos hlt]
      have done : ∀ level levels, ((if below (State.score { st with agenda := st.agenda.eraseIdx (pick turns % st.agenda.length) } i)
            level.min = true then
              go p pick fuel (turns + 1) level levels { st with agenda := st.agenda.eraseIdx (pick turns % st.agenda.length) }
            else go p pick fuel (turns + 1) level levels
              (process p level.min { st with agenda := st.agenda.eraseIdx (pick turns % st.agenda.length) } i))).isSome := by
        intro level levels
        split
        · apply ih _ _ _ _ hg1 hn hnd
          simp only
          omega
        · obtain ⟨new, h1, h2, h3, h4, h5⟩ := applyRules_ext hc level.min hg1 (i := i) he hde
          have e2 : (process p level.min { st with agenda := st.agenda.eraseIdx (pick turns % st.agenda.length) } i).edges =
              st.edges ++ new := h1
          have e3 : (process p level.min { st with agenda := st.agenda.eraseIdx (pick turns % st.agenda.length) } i).agenda =
              st.agenda.eraseIdx (pick turns % st.agenda.length) ++ List.range' st.edges.length new.length := h2
          refine ih _ _ _ _ (process_good hc level.min hg1 he hde) ?_ ?_ ?_
          · rw [e2, List.length_append]; omega
          · rw [e2, List.drop_append_of_le_length hn, List.map_append, List.nodup_append]
            refine ⟨hnd, h4.1, ?_⟩
            intro k hk1 k' hk2
            obtain ⟨x, hx, rfl⟩ := List.mem_map.1 hk1
            obtain ⟨y, hy, rfl⟩ := List.mem_map.1 hk2
            exact h4.2 x (List.mem_of_mem_drop hx) y hy
          · rw [e2, e3, List.length_append, List.length_append, List.length_range', hlen]
            omega
      split
      · split
        · rfl
        · exact done _ _
      · exact done _ _

end Verif.Chart
