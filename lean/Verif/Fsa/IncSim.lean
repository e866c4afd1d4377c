import Verif.Fsa.IncLoop

/-!
The two automaton classes behave like lists of states in the incremental construction.
-/
set_option linter.unusedVariables false
set_option linter.unusedSimpArgs false

namespace Verif.Fsa
open BinSpec

/-- The operations of a class, seen as operations on lists of states. -/
structure Sim {σ : Type} (O : Ops σ) (cap : Nat) (R : σ → Abs → Prop) : Prop where
  empty : R O.empty []
  size : ∀ {s A}, R s A → O.size s = A.length
  addState : ∀ {s A} b, R s A → (O.addState s b).1 = A.length ∧ R (O.addState s b).2 (A ++ [(false, [])])
  addArc : ∀ {s A p arc}, R s A → p < A.length → arcCount A + 1 < cap → ∃ s', O.addArc s p arc = some s' ∧
    R s' (A.modify p (fun s => (s.1, insertSorted (arcLt natLt) arc s.2)))
  setEnd : ∀ {s A p}, R s A → p < A.length → ∃ s', O.setEnd s p = some s' ∧ R s' (A.modify p (fun s => (true, s.2)))
  deleteLast : ∀ {s A}, R s A → A ≠ [] → ∃ s', O.deleteLast s = some s' ∧ R s' A.dropLast
  isEnd : ∀ {s A p}, R s A → p < A.length → O.isEnd s p = some (fi A p)
  arcs : ∀ {s A p}, R s A → p < A.length → O.arcs s p = some (ar A p)
  delta : ∀ {s A p} x, R s A → p < A.length → O.delta s p x =
    some ((checkFound x ((ar A p).dropWhile (fun arc => arcLt natLt arc (x, 0)))).head?.map (·.2))
  setLastDest : ∀ {s A p q}, R s A → p < A.length → ar A p ≠ [] → ∃ s', O.setLastDest s p q = some s' ∧
    R s' (A.modify p (fun s => (s.1, setLast q s.2)))

section
variable {σ : Type} {O : Ops σ} {cap : Nat} {R : σ → Abs → Prop} {h : Bool × List (Sym × Nat) → Nat}

theorem abs_lt {A : Abs} {p : Nat} {x : Bool × List (Sym × Nat)} (hs : sig (absOps cap) A p = some x) :
    p < A.length ∧ x = sg A p := by
  have hp : p < A.length := by
    by_contra hn
    have : sig (absOps cap) A p = none := by
      show (match A[p]?.map (·.1), A[p]?.map (·.2) with | some f, some l => some (f, l) | _, _ => none) = _
      rw [List.getElem?_eq_none (by omega)]; rfl
    rw [this] at hs; simp at hs
  rw [sig_abs hp] at hs
  exact ⟨hp, (Option.some.inj hs).symm⟩

theorem abs_arcs {A : Abs} {p : Nat} {l : List (Sym × Nat)} (hs : (absOps cap).arcs A p = some l) :
    p < A.length ∧ l = ar A p := by
  have hp : p < A.length := by
    by_contra hn
    have : (absOps cap).arcs A p = none := by
      show A[p]?.map (·.2) = none
      rw [List.getElem?_eq_none (by omega)]; rfl
    rw [this] at hs; simp at hs
  rw [arcs_abs hp] at hs
  exact ⟨hp, (Option.some.inj hs).symm⟩

theorem sim_sig (hS : Sim O cap R) {s : σ} {A : Abs} (hR : R s A) {p : Nat} (hp : p < A.length) :
    sig O s p = some (sg A p) := by
  unfold sig
  rw [hS.isEnd hR hp, hS.arcs hR hp]; rfl

theorem sim_regFind (hS : Sim O cap R) {s : σ} {A : Abs} (hR : R s A) (x : Bool × List (Sym × Nat)) {reg : List Entry}
    {r : Option Nat} : regFind (absOps cap) h A x reg = some r → regFind O h s x reg = some r := by
  induction reg with
  | nil => intro e; exact e
  | cons en reg ih =>
    intro e
    unfold regFind at e ⊢
    by_cases hx : en.1 = h x
    · rw [if_pos hx] at e ⊢
      cases h1 : sig (absOps cap) A en.2 with
      | none => rw [h1] at e; simp at e
      | some y =>
        obtain ⟨hcl, rfl⟩ := abs_lt h1
        rw [h1] at e
        rw [sim_sig hS hR hcl]
        dsimp only at e ⊢
        by_cases hq : equiv (sg A en.2) x = true
        · rw [if_pos hq] at e ⊢; exact e
        · rw [if_neg hq] at e ⊢; exact ih e
    · rw [if_neg hx] at e ⊢; exact ih e

theorem sim_rorEnd (hS : Sim O cap R) {s : σ} {A A' : Abs} (hR : R s A) {reg reg' : List Entry} {p c : Nat}
    (e : rorEnd (absOps cap) h A reg p c = some (A', reg')) :
    ∃ s', rorEnd O h s reg p c = some (s', reg') ∧ R s' A' := by
  unfold rorEnd at e ⊢
  cases h1 : sig (absOps cap) A c with
  | none => rw [h1] at e; simp at e
  | some x =>
    obtain ⟨hcl, rfl⟩ := abs_lt h1
    rw [h1] at e
    rw [sim_sig hS hR hcl]
    dsimp only at e ⊢
    cases h2 : regFind (absOps cap) h A (sg A c) reg with
    | none => rw [h2] at e; simp at e
    | some r =>
      rw [h2] at e
      rw [sim_regFind hS hR _ h2]
      cases r with
      | none =>
        simp only [Option.some.injEq, Prod.mk.injEq] at e
        obtain ⟨rfl, rfl⟩ := e
        exact ⟨s, rfl, hR⟩
      | some q =>
        dsimp only at e ⊢
        by_cases h3 : p < A.length ∧ ar A p ≠ []
        · have e1 : (absOps cap).setLastDest A p q = some (A.modify p (fun s => (s.1, setLast q s.2))) := if_pos h3
          rw [e1] at e
          dsimp only at e
          obtain ⟨s1, e2, r2⟩ := hS.setLastDest (q := q) hR h3.1 h3.2
          rw [e2]
          dsimp only
          by_cases h4 : A.modify p (fun s => (s.1, setLast q s.2)) = []
          · have e3 : (absOps cap).deleteLast (A.modify p (fun s => (s.1, setLast q s.2))) = none := if_pos h4
            rw [e3] at e; simp at e
          · have e3 : (absOps cap).deleteLast (A.modify p (fun s => (s.1, setLast q s.2))) =
                some (A.modify p (fun s => (s.1, setLast q s.2))).dropLast := if_neg h4
            rw [e3] at e
            simp only [Option.some.injEq, Prod.mk.injEq] at e
            obtain ⟨rfl, rfl⟩ := e
            obtain ⟨s2, e4, r4⟩ := hS.deleteLast r2 h4
            rw [e4]
            exact ⟨s2, rfl, r4⟩
        · have e1 : (absOps cap).setLastDest A p q = none := if_neg h3
          rw [e1] at e; simp at e

theorem sim_ror (hS : Sim O cap R) (n : Nat) : ∀ {s : σ} {A A' : Abs} {reg reg' : List Entry} {p : Nat}, R s A →
    ror (absOps cap) h n A reg p = some (A', reg') → ∃ s', ror O h n s reg p = some (s', reg') ∧ R s' A' := by
  induction n with
  | zero => intro s A A' reg reg' p _ e; simp [ror] at e
  | succ n ih =>
    intro s A A' reg reg' p hR e
    unfold ror at e ⊢
    cases h1 : (absOps cap).arcs A p with
    | none => rw [h1] at e; simp at e
    | some l =>
      obtain ⟨hp, rfl⟩ := abs_arcs h1
      rw [h1] at e
      rw [hS.arcs hR hp]
      rw [Option.bind_some] at e ⊢
      cases h2 : (ar A p).getLast? with
      | none => rw [h2] at e; simp at e
      | some last =>
        rw [h2] at e
        dsimp only at e ⊢
        cases h3 : (absOps cap).arcs A last.2 with
        | none => rw [h3] at e; simp at e
        | some l' =>
          obtain ⟨hl, rfl⟩ := abs_arcs h3
          rw [h3] at e
          rw [hS.arcs hR hl]
          cases h4 : ar A last.2 with
          | nil =>
            rw [h4] at e
            exact sim_rorEnd hS hR e
          | cons a l =>
            rw [h4] at e
            dsimp only at e ⊢
            cases h5 : ror (absOps cap) h n A reg last.2 with
            | none => rw [h5] at e; simp at e
            | some res =>
              obtain ⟨A1, reg1⟩ := res
              rw [h5] at e
              obtain ⟨s1, e1, r1⟩ := ih hR h5
              rw [e1]
              exact sim_rorEnd hS r1 e

theorem sim_walk (hS : Sim O cap R) {s : σ} {A : Abs} (hR : R s A) (w : List Sym) : ∀ {p : Nat} {r : Nat × List Sym},
    walk (absOps cap) A p w = some r → walk O s p w = some r := by
  induction w with
  | nil => intro p r e; exact e
  | cons x w ih =>
    intro p r e
    unfold walk at e ⊢
    by_cases hp : p < A.length
    · have e1 : (absOps cap).delta A p x =
        some ((checkFound x ((ar A p).dropWhile (fun arc => arcLt natLt arc (x, 0)))).head?.map (·.2)) := if_pos hp
      rw [e1] at e
      rw [hS.delta x hR hp]
      cases h2 : (checkFound x ((ar A p).dropWhile (fun arc => arcLt natLt arc (x, 0)))).head?.map (·.2) with
      | none => rw [h2] at e; exact e
      | some q => rw [h2] at e; exact ih e
    · have e1 : (absOps cap).delta A p x = none := if_neg hp
      rw [e1] at e; simp at e

theorem sim_addRest (hS : Sim O cap R) (w : List Sym) : ∀ {s : σ} {A A' : Abs} {p q : Nat}, R s A →
    addRest (absOps cap) A p w = some (q, A') → ∃ s', addRest O s p w = some (q, s') ∧ R s' A' := by
  induction w with
  | nil =>
    intro s A A' p q hR e
    simp only [addRest, Option.some.injEq, Prod.mk.injEq] at e ⊢
    obtain ⟨rfl, rfl⟩ := e
    exact ⟨s, ⟨rfl, rfl⟩, hR⟩
  | cons x w ih =>
    intro s A A' p q hR e
    unfold addRest at e ⊢
    obtain ⟨n1, r1⟩ := hS.addState false hR
    by_cases hp : p < (A ++ [(false, [])]).length ∧ arcCount (A ++ [(false, [])]) + 1 < cap
    · have e1 : (absOps cap).addArc ((absOps cap).addState A false).2 p (x, ((absOps cap).addState A false).1) =
          some ((A ++ [(false, [])]).modify p (fun s => (s.1, insertSorted (arcLt natLt) (x, A.length) s.2))) := if_pos hp
      rw [e1] at e
      obtain ⟨s2, e2, r2⟩ := hS.addArc (arc := (x, A.length)) r1 hp.1 hp.2
      rw [n1, e2]
      exact ih r2 e
    · have e1 : (absOps cap).addArc ((absOps cap).addState A false).2 p (x, ((absOps cap).addState A false).1) =
          none := if_neg hp
      rw [e1] at e; simp at e

theorem sim_addEnd (hS : Sim O cap R) {w : List Sym} {s : σ} {A A' : Abs} {p : Nat} {reg reg' : List Entry} (hR : R s A)
    (e : addEnd (absOps cap) A reg p w = some (A', reg')) : ∃ s', addEnd O s reg p w = some (s', reg') ∧ R s' A' := by
  unfold addEnd at e ⊢
  cases h1 : addRest (absOps cap) A p w with
  | none => rw [h1] at e; simp at e
  | some res =>
    obtain ⟨q, A1⟩ := res
    rw [h1] at e
    obtain ⟨s1, e1, r1⟩ := sim_addRest hS w hR h1
    rw [e1]
    dsimp only at e ⊢
    by_cases hq : q < A1.length
    · have e2 : (absOps cap).setEnd A1 q = some (A1.modify q (fun s => (true, s.2))) := if_pos hq
      rw [e2] at e
      simp only [Option.some.injEq, Prod.mk.injEq] at e
      obtain ⟨rfl, rfl⟩ := e
      obtain ⟨s2, e3, r3⟩ := hS.setEnd r1 hq
      rw [e3]
      exact ⟨s2, rfl, r3⟩
    · have e2 : (absOps cap).setEnd A1 q = none := if_neg hq
      rw [e2] at e; simp at e

theorem sim_rorIf (hS : Sim O cap R) {s : σ} {A A' : Abs} {p : Nat} {reg reg' : List Entry} (hR : R s A)
    (e : rorIf (absOps cap) h A reg p = some (A', reg')) : ∃ s', rorIf O h s reg p = some (s', reg') ∧ R s' A' := by
  unfold rorIf at e ⊢
  cases h1 : (absOps cap).arcs A p with
  | none => rw [h1] at e; simp at e
  | some l =>
    obtain ⟨hp, rfl⟩ := abs_arcs h1
    rw [h1] at e
    rw [hS.arcs hR hp]
    cases h4 : ar A p with
    | nil =>
      rw [h4] at e
      simp only [Option.some.injEq, Prod.mk.injEq] at e
      obtain ⟨rfl, rfl⟩ := e
      exact ⟨s, rfl, hR⟩
    | cons a l =>
      rw [h4] at e
      dsimp only at e ⊢
      rw [hS.size hR]
      exact sim_ror hS _ hR e

theorem sim_incWord (hS : Sim O cap R) {w : List Sym} {s : σ} {A A' : Abs} {reg reg' : List Entry} (hR : R s A)
    (e : incWord (absOps cap) h A reg w = some (A', reg')) : ∃ s', incWord O h s reg w = some (s', reg') ∧ R s' A' := by
  unfold incWord at e ⊢
  cases h1 : walk (absOps cap) A 0 w with
  | none => rw [h1] at e; simp at e
  | some res =>
    obtain ⟨p, rest⟩ := res
    rw [h1] at e
    rw [sim_walk hS hR w h1]
    dsimp only at e ⊢
    cases h2 : rorIf (absOps cap) h A reg p with
    | none => rw [h2] at e; simp at e
    | some res =>
      obtain ⟨A1, reg1⟩ := res
      rw [h2] at e
      obtain ⟨s1, e1, r1⟩ := sim_rorIf hS hR h2
      rw [e1]
      exact sim_addEnd hS r1 e

theorem sim_incLoop (hS : Sim O cap R) (ws : List (List Sym)) : ∀ {s : σ} {A A' : Abs} {reg reg' : List Entry}, R s A →
    incLoop (absOps cap) h A reg ws = some (A', reg') → ∃ s', incLoop O h s reg ws = some (s', reg') ∧ R s' A' := by
  induction ws with
  | nil =>
    intro s A A' reg reg' hR e
    simp only [incLoop, Option.some.injEq, Prod.mk.injEq] at e ⊢
    obtain ⟨rfl, rfl⟩ := e
    exact ⟨s, ⟨rfl, rfl⟩, hR⟩
  | cons w ws ih =>
    intro s A A' reg reg' hR e
    unfold incLoop at e ⊢
    cases h1 : incWord (absOps cap) h A reg w with
    | none => rw [h1] at e; simp at e
    | some res =>
      obtain ⟨A1, reg1⟩ := res
      rw [h1] at e
      obtain ⟨s1, e1, r1⟩ := sim_incWord hS hR h1
      rw [e1]
      exact ih r1 e

theorem sim_minimizeIncremental (hS : Sim O cap R) {ws : List (List Sym)} {A : Abs}
    (e : minimizeIncremental (absOps cap) h ws = some A) : ∃ s, minimizeIncremental O h ws = some s ∧ R s A := by
  unfold minimizeIncremental at e ⊢
  have r0 := (hS.addState true hS.empty).2
  cases h1 : incLoop (absOps cap) h ((absOps cap).addState (absOps cap).empty true).2 [] ws with
  | none => rw [h1] at e; simp at e
  | some res =>
    obtain ⟨A1, reg1⟩ := res
    rw [h1] at e
    obtain ⟨s1, e1, r1⟩ := sim_incLoop hS ws r0 h1
    rw [e1]
    dsimp only at e ⊢
    rw [Option.map_eq_some_iff] at e
    obtain ⟨⟨A2, reg2⟩, e2, rfl⟩ := e
    rw [hS.size r1]
    obtain ⟨s2, e3, r3⟩ := sim_ror hS _ r1 e2
    have e3' : ror O h (List.length A1) s1 reg1 0 = some (s2, reg2) := e3
    rw [e3']
    exact ⟨s2, rfl, r3⟩

end

/-! ### The packed automaton -/

theorem sim_bin : Sim binOps (2 ^ 31) Pack where
  empty := pack_empty
  size := fun h => pack_size h
  addState := fun b h => ⟨pack_size h, pack_addState h⟩
  addArc := fun h hp hc => pack_addArc h hc
  setEnd := fun h hp => pack_setEnd h hp
  deleteLast := fun h hA => pack_delete h hA
  isEnd := fun {s A p} h hp => by
    show s.isEnd p = _
    rw [pack_isEnd h, get_sg hp]; rfl
  arcs := fun {s A p} h hp => by
    show s.getArcs p = _
    rw [pack_getArcs h (by rintro rfl; simp at hp)]; rfl
  delta := fun {s A p} x h hp => by
    show s.delta p x = _
    unfold Bin.delta Bin.find
    rw [if_neg (by rw [pack_size h]; omega), pack_getArcs h (by rintro rfl; simp at hp)]
    rfl
  setLastDest := fun {s A p q} h hp hne => by
    obtain ⟨A1, t, A2, rfl, rfl⟩ := split_at hp
    have hend := pack_endPos h
    have hat : ar (A1 ++ t :: A2) A1.length = t.2 := by simp [ar]
    rw [hat] at hne
    obtain ⟨l, ⟨x, d⟩, hl⟩ : ∃ l a, t.2 = l ++ [a] := by
      rcases List.eq_nil_or_concat t.2 with e | ⟨l, a, e⟩
      · exact absurd e hne
      · exact ⟨l, a, by rw [e, List.concat_eq_append]⟩
    show ∃ s', s.setLastDest A1.length q = some s' ∧ _
    unfold Bin.setLastDest
    have hlen : t.2.length = l.length + 1 := by rw [hl]; simp
    rw [hend, hlen, ← Nat.add_assoc]
    dsimp only
    have hfl : s.arcs = (flat A1 ++ l) ++ (x, d) :: flat A2 := by
      rw [h.arcs, pack_split.2, hl]; simp
    have hll : (flat A1 ++ l).length = arcCount A1 + l.length := by simp [length_flat]
    have hget : s.arcs[arcCount A1 + l.length]? = some (x, d) := by
      rw [hfl, ← hll]; simp
    rw [hget]
    refine ⟨_, rfl, ?_, ?_, ?_⟩
    · show s.states = _
      rw [h.states, modify_split, offs_append, offs_append]
      simp only [offs]
      rw [hl, setLast_append]; simp
    · show s.arcs.set _ _ = _
      rw [modify_split, pack_split.2, hfl, ← hll, List.set_append_right _ _ (Nat.le_refl _), Nat.sub_self, List.set_cons_zero]
      dsimp only
      rw [hl, setLast_append]; simp
    · have := h.small
      rw [pack_split.1] at this
      rw [modify_split, pack_split.1]
      dsimp only
      rw [hl, setLast_append]
      rw [hl] at this
      simpa using this

/-! ### The plain automaton -/

/-- The automaton has these states. -/
structure Plain (a : Fsa) (B : Abs) : Prop where
  states : a.states = B.map (·.2)
  ends : ∀ p, p ∈ a.ends ↔ fi B p = true

theorem plain_arcs {a : Fsa} {B : Abs} (h : Plain a B) (p : Nat) : a.arcs p = ar B p := by
  show a.states.getD p [] = _
  rw [h.states, List.getD_eq_getElem?_getD, List.getElem?_map]; rfl

theorem fi_lt {B : Abs} {p : Nat} (h : fi B p = true) : p < B.length := by
  by_contra hn
  rw [fi_eq, sg_out (by omega)] at h; simp at h

theorem map_modify (B : Abs) (p : Nat) (f : Bool × List (Sym × Nat) → Bool × List (Sym × Nat)) (g : List (Sym × Nat) → List (Sym × Nat))
    (hfg : ∀ s, (f s).2 = g s.2) : (B.modify p f).map (·.2) = (B.map (·.2)).modify p g := by
  induction B generalizing p with
  | nil => simp
  | cons s B ih =>
    cases p with
    | zero => simp [hfg]
    | succ p => simp [ih]

theorem set_eq_modify (l : List (List (Sym × Nat))) (p : Nat) (g : List (Sym × Nat) → List (Sym × Nat)) :
    l.set p (g (l.getD p [])) = l.modify p g := by
  induction l generalizing p with
  | nil => simp
  | cons x l ih =>
    cases p with
    | zero => simp
    | succ p => simpa using ih p

theorem sim_dfsa (cap : Nat) : Sim dfsaOps cap Plain where
  empty := ⟨rfl, by intro p; simp [dfsaOps, Fsa.empty, fi]⟩
  size := fun {s A} h => by show s.states.length = _; rw [h.states]; simp
  addState := fun {s A} b h => by
    refine ⟨by show s.states.length = _; rw [h.states]; simp, ?_, ?_⟩
    · show s.states ++ [[]] = _
      rw [h.states]; simp
    · intro p
      show p ∈ s.ends ↔ _
      rw [h.ends]
      by_cases hp : p < A.length
      · rw [fi_eq, fi_eq, sg_append_left _ _ hp]
      · rw [fi_eq, sg_out (by omega)]
        by_cases he : p = A.length
        · subst he; simp [fi]
        · rw [fi_eq, sg_out (by simp; omega)]
  addArc := fun {s A p arc} h hp hc => by
    have hs : s.size = A.length := by show s.states.length = _; rw [h.states]; simp
    refine ⟨s.addArc p arc, if_pos (by rw [hs]; exact hp), ?_, ?_⟩
    · show s.states.set p (insertSorted (arcLt natLt) arc (s.states.getD p [])) = _
      rw [set_eq_modify s.states p (insertSorted (arcLt natLt) arc), h.states, map_modify _ _ _ _ (fun _ => rfl)]
    · intro q
      show q ∈ s.ends ↔ _
      rw [h.ends, fi_eq, fi_eq, sg_modify _ _ hp]
      by_cases hq : q = p
      · subst hq; rw [if_pos rfl]
      · rw [if_neg hq]
  setEnd := fun {s A p} h hp => by
    refine ⟨s.setEnd p, rfl, ?_, ?_⟩
    · show s.states = _
      rw [h.states, map_modify A p (fun s => (true, s.2)) id (fun _ => rfl)]; simp
    · intro q
      show q ∈ insertSet natLt p s.ends ↔ _
      rw [mem_insertSet natLt_order, h.ends, fi_eq, fi_eq, sg_modify _ _ hp]
      by_cases hq : q = p
      · subst hq; simp
      · simp [hq]
  deleteLast := fun {s A} h hA => by
    have hs : s.size = A.length := by show s.states.length = _; rw [h.states]; simp
    have hpos : 0 < A.length := List.length_pos_iff.2 hA
    refine ⟨s.deleteLastState, if_neg (by omega), ?_, ?_⟩
    · show s.states.dropLast = _
      rw [h.states, List.map_dropLast]
    · intro q
      show q ∈ s.ends.filter (· ≠ s.size - 1) ↔ _
      rw [List.mem_filter, h.ends, hs, decide_eq_true_eq]
      by_cases hq : q + 1 < A.length
      · rw [fi_eq, fi_eq, sg_dropLast _ hq]
        constructor
        · exact fun hh => hh.1
        · intro hh; exact ⟨hh, by omega⟩
      · constructor
        · rintro ⟨h1, h2⟩
          have := fi_lt h1
          omega
        · intro h1
          have := fi_lt h1
          simp at this; omega
  isEnd := fun {s A p} h hp => by
    show some (decide (p ∈ s.ends)) = _
    congr 1
    rw [Bool.eq_iff_iff, decide_eq_true_eq, h.ends]
  arcs := fun {s A p} h hp => by
    show s.states[p]? = _
    rw [h.states, List.getElem?_map, get_sg hp]; rfl
  delta := fun {s A p} x h hp => by
    have hs : s.size = A.length := by show s.states.length = _; rw [h.states]; simp
    show (if p = s.size then none else some (s.ddelta p x)) = _
    rw [if_neg (by omega)]
    unfold Fsa.ddelta Fsa.find
    rw [if_neg (by omega), plain_arcs h]
  setLastDest := fun {s A p q} h hp hne => by
    refine ⟨_, if_neg (by rw [plain_arcs h]; exact hne), ?_, ?_⟩
    · show s.states.set p (setLast q (s.states.getD p [])) = _
      rw [set_eq_modify s.states p (setLast q), h.states, map_modify A p (fun s => (s.1, setLast q s.2)) (setLast q) (fun _ => rfl)]
    · intro r
      show r ∈ s.ends ↔ _
      rw [h.ends, fi_eq, fi_eq, sg_modify _ _ hp]
      by_cases hq : r = p
      · subst hq; rw [if_pos rfl]
      · rw [if_neg hq]

end Verif.Fsa
