import Verif.Fsa.IncAbs

/-!
The incremental construction on lists of states: the loops.
-/
set_option linter.unusedVariables false
set_option linter.unusedSimpArgs false

namespace Verif.Fsa
open BinSpec

theorem arcs_abs {cap : Nat} {A : Abs} {p : Nat} (h : p < A.length) : (absOps cap).arcs A p = some (ar A p) := by
  show A[p]?.map (·.2) = _
  rw [get_sg h]; rfl

theorem kept_trans {A A' A'' : Abs} {d p : Nat} (hpd : p < d) (h1 : Kept A A' d) (h : Kept A' A'' p) : Kept A A'' p :=
  ⟨h.syms.trans (by rw [ar_eq, h1.low p hpd]; rfl), fun v => (h.acc v).trans (h1.acc v), Nat.le_trans h.count h1.count,
    fun s hs => (h.low s hs).trans (h1.low s (by omega))⟩

theorem ror_spec {cap : Nat} {h : Bool × List (Sym × Nat) → Nat} {A : Abs} {reg : List Entry} {Reg : List Nat} {c : Nat}
    (hreg : RegOk h A reg Reg) (hc : ar A c = []) (hfi : fi A c = true) (ds : List Nat) : ∀ (n : Nat) (p : Nat) (cs : List Nat)
    (ys xs : List Sym), ds.length < n → ys.length = ds.length + 1 → Inv A Reg c (ds ++ p :: cs) (ys ++ xs) →
    ∃ A' reg' Reg', ror (absOps cap) h n A reg p = some (A', reg') ∧ RegOk h A' reg' Reg' ∧ Inv A' Reg' p cs xs ∧
      ar A' p ≠ [] ∧ Kept A A' p := by
  induction ds using List.reverseRecOn with
  | nil =>
    intro n p cs ys xs hn hl hI
    match ys, hl with
    | [y], _ =>
      match n, hn with
      | n + 1, _ =>
        have hI' : Inv A Reg c (p :: cs) (y :: xs) := hI
        have hpl : p < A.length := (hI'.cover p).2 (by simp)
        have hcl : c < A.length := (hI'.cover c).2 (by simp)
        obtain ⟨_, ⟨init, b2, _⟩, _⟩ := hI'.below
        unfold ror
        rw [arcs_abs hpl, Option.bind_some, b2, List.getLast?_concat]
        dsimp only
        rw [arcs_abs hcl, hc]
        exact pop hI' hreg (.inl hfi)
  | append_singleton ds d ih =>
    intro n p cs ys xs hn hl hI
    obtain ⟨ys, y, rfl⟩ : ∃ ys' y, ys = ys' ++ [y] := by
      rcases List.eq_nil_or_concat ys with rfl | ⟨ys', y, e⟩
      · simp at hl
      · exact ⟨ys', y, by rw [e, List.concat_eq_append]⟩
    simp only [List.length_append, List.length_singleton] at hn hl
    match n, hn with
    | n + 1, hn =>
      have hI' : Inv A Reg c (ds ++ d :: p :: cs) (ys ++ y :: xs) := by simpa using hI
      have hpl : p < A.length := (hI'.cover p).2 (by simp)
      have hdl : d < A.length := (hI'.cover d).2 (by simp)
      obtain ⟨b1, ⟨init, b2, b3⟩, _⟩ := below_last (by omega) hI'.below
      have hdne : ar A d ≠ [] := by
        rcases List.eq_nil_or_concat ds with rfl | ⟨ds', d', e⟩
        · match ys, hl with
          | [z], _ =>
            obtain ⟨_, ⟨init', b2', _⟩, _⟩ := hI'.below
            rw [b2']; simp
        · subst e
          obtain ⟨ys, z, rfl⟩ : ∃ ys' y, ys = ys' ++ [y] := by
            rcases List.eq_nil_or_concat ys with rfl | ⟨ys', y, e⟩
            · simp at hl
            · exact ⟨ys', y, by rw [e, List.concat_eq_append]⟩
          rw [List.concat_eq_append] at hI' hl
          simp only [List.length_append, List.length_singleton] at hl
          have hb : Below A Reg c (ds' ++ d' :: d :: p :: cs) (ys ++ z :: (y :: xs)) := by
            simpa using hI'.below
          obtain ⟨_, ⟨init', b2', _⟩, _⟩ := below_last (by omega) hb
          rw [b2']; simp
      obtain ⟨A1, reg1, Reg1, e1, r1, i1, n1, k1⟩ := ih n d (p :: cs) ys (y :: xs)
        (by omega) (by omega) hI'
      obtain ⟨A2, reg2, Reg2, e2, r2, i2, n2, k2⟩ := pop (cap := cap) i1 r1 (.inr n1)
      unfold ror
      rw [arcs_abs hpl, Option.bind_some, b2, List.getLast?_concat]
      dsimp only
      rw [arcs_abs hdl]
      cases had : ar A d with
      | nil => exact absurd had hdne
      | cons a l =>
        dsimp only
        rw [e1]
        dsimp only
        exact ⟨A2, reg2, Reg2, e2, r2, i2, n2, kept_trans b1 k1 k2⟩

/-! ### New states -/

theorem insertSorted_end {arc : Sym × Nat} {l : List (Sym × Nat)} (h : ∀ a ∈ l, a.1 < arc.1) :
    insertSorted (arcLt natLt) arc l = l ++ [arc] := by
  induction l with
  | nil => rfl
  | cons a l ih =>
    unfold insertSorted
    have : arcLt natLt a arc = true := by simp [arcLt, symLt, h a (by simp)]
    rw [if_pos this, ih (fun b hb => h b (by simp [hb]))]; rfl

theorem push {cap : Nat} {A : Abs} {Reg : List Nat} {c : Nat} {cs : List Nat} {xs : List Sym} (hI : Inv A Reg c cs xs)
    {y : Sym} (hy : ∀ a ∈ ar A c, a.1 < y) (hcap : arcCount A + 1 < cap) :
    ∃ A', (absOps cap).addArc ((absOps cap).addState A false).2 c (y, ((absOps cap).addState A false).1) = some A' ∧
      Inv A' Reg A.length (c :: cs) (y :: xs) ∧ ar A' A.length = [] ∧ (∀ v, Acc A' 0 v ↔ Acc A 0 v) ∧
      arcCount A' = arcCount A + 1 ∧ Agree A A' Reg := by
  have hcl : c < A.length := (hI.cover c).2 (by simp)
  have hm : ∀ t ∈ Reg, ∀ a ∈ ar A t, a.2 ∈ Reg := fun t ht => hI.glob.arcs_mem ht
  have hcl' : c < (A ++ [(false, [])] : Abs).length := by simp; omega
  have hcount : arcCount (A ++ [(false, [])]) = arcCount A := by rw [arcCount_append]; simp [arcCount]
  have e1 : (absOps cap).addArc ((absOps cap).addState A false).2 c (y, ((absOps cap).addState A false).1) =
      some ((A ++ [(false, [])]).modify c (fun s => (s.1, insertSorted (arcLt natLt) (y, A.length) s.2))) := by
    refine if_pos ⟨hcl', ?_⟩
    show arcCount (A ++ [(false, [])]) + 1 < cap
    rw [hcount]; exact hcap
  rw [e1]
  refine ⟨_, rfl, ?_⟩
  have hsgc : sg (A ++ [(false, [])] : Abs) c = sg A c := sg_append_left A _ hcl
  have hcnt := count_modify hcl' (fun s => (s.1, insertSorted (arcLt natLt) (y, A.length) s.2))
  have hsc' := sg_modify (A ++ [(false, [])]) (fun s => (s.1, insertSorted (arcLt natLt) (y, A.length) s.2)) hcl'
  have hlen' : ((A ++ [(false, [])] : Abs).modify c (fun s => (s.1, insertSorted (arcLt natLt) (y, A.length) s.2))).length =
      A.length + 1 := by simp
  generalize (A ++ [(false, [])] : Abs).modify c (fun s => (s.1, insertSorted (arcLt natLt) (y, A.length) s.2)) = A' at *
  have hins : insertSorted (arcLt natLt) (y, A.length) (ar A c) = ar A c ++ [(y, A.length)] := insertSorted_end hy
  have hsg : ∀ s, s ≠ c → s < A.length → sg A' s = sg A s := by
    intro s h1 h2
    rw [hsc', if_neg h1, sg_append_left A _ h2]
  have hapc : sg A' c = (fi A c, ar A c ++ [(y, A.length)]) := by
    rw [hsc', if_pos rfl, hsgc, ← hins]; rfl
  have hac : ar A' c = ar A c ++ [(y, A.length)] := by rw [ar_eq, hapc]
  have hn : sg A' A.length = (false, []) := by
    rw [hsc', if_neg (by omega)]; simp [sg, fi, ar]
  have hag : Agree A A' Reg := fun s hs => hsg s (fun e => hI.disj c (by simp) (e ▸ hs)) (hI.glob.lt s hs)
  have hagc : Agree A A' cs := by
    intro s hs
    have h1 := below_lt hI.below s hs
    exact hsg s (by omega) (by omega)
  have hAn : ar A' A.length = [] := by rw [ar_eq, hn]
  refine ⟨?_, hAn, ?_, ?_, hag⟩
  · refine ⟨?_, ?_, ?_, ?_, ?_, ?_, ?_⟩
    · refine glob_frame hI.glob hag ?_ ?_
      · intro r hr; have := hI.glob.lt r hr; omega
      · intro s hs
        by_cases hsc : s = c
        · rw [hsc, hac, List.pairwise_append]
          refine ⟨hI.glob.sorted c, by simp, ?_⟩
          intro a ha b hb
          simp only [List.mem_singleton] at hb
          subst hb
          exact hy a ha
        · by_cases hsl : s < A.length
          · have : ar A' s = ar A s := congrArg Prod.snd (hsg s hsc hsl)
            rw [this]; exact hI.glob.sorted s
          · have : ar A' s = [] := by
              by_cases hse : s = A.length
              · rw [hse]; exact hAn
              · rw [ar_eq, sg_out (by omega)]
            rw [this]; exact List.Pairwise.nil
    · intro s
      have := hI.cover s
      simp only [List.mem_cons] at this ⊢
      rw [hlen']
      constructor
      · intro hs
        by_cases he : s = A.length
        · exact .inr (.inl he)
        · rcases this.1 (by omega) with h1 | h1
          · exact .inl h1
          · exact .inr (.inr h1)
      · rintro (h1 | h1 | h1)
        · have := this.2 (.inl h1); omega
        · omega
        · have := this.2 (.inr h1); omega
    · intro s hs hsR
      simp only [List.mem_cons] at hs
      rcases hs with rfl | hs
      · have := hI.glob.lt _ hsR; omega
      · exact hI.disj s (by simpa using hs) hsR
    · refine ⟨hcl, ⟨ar A c, hac, hI.head⟩, ?_, shut_frame hag hI.shut, below_frame hI.glob hag hagc hI.below⟩
      intro r hr h1 h2
      refine good_frame hI.glob hag ?_ (hI.good r hr h1)
      intro a ha _
      rw [hac]; exact List.mem_append_left _ ha
    · intro a ha; rw [hAn] at ha; simp at ha
    · intro r hr h1; have := hI.glob.lt r hr; omega
    · intro t ht hlt a ha
      rw [hag.ar ht] at ha
      exact hI.glob.lt _ (hm t ht a ha)
  · have hc : ∀ v, Acc A' c v ↔ Acc A c v ∨ False := by
      intro v
      rw [or_false]
      cases v with
      | nil => simp only [Acc]; rw [fi_eq, hapc]
      | cons z v =>
        simp only [Acc, hac, List.mem_append, List.mem_singleton, Prod.mk.injEq]
        constructor
        · rintro ⟨q, h1 | ⟨rfl, rfl⟩, h2⟩
          · exact ⟨q, h1, (acc_frame hm hag v (hI.head _ h1)).1 h2⟩
          · exfalso
            cases v with
            | nil => simp only [Acc] at h2; rw [fi_eq, hn] at h2; simp at h2
            | cons z' v => simp only [Acc] at h2; rw [hAn] at h2; simp at h2
        · rintro ⟨q, h1, h2⟩
          exact ⟨q, .inl h1, (acc_frame hm hag v (hI.head _ h1)).2 h2⟩
    intro v
    have := acc_lift hI.glob hag (fun _ => False) hagc hI.below hc v
    simpa using this
  · rw [hsgc] at hcnt
    have e : (insertSorted (arcLt natLt) (y, A.length) (sg A c).2).length = (ar A c).length + 1 := by
      rw [← ar_eq, hins]; simp
    have e' : ar (A ++ [(false, [])] : Abs) c = ar A c := congrArg Prod.snd hsgc
    dsimp only at hcnt
    rw [e, e'] at hcnt
    omega

theorem addRest_spec {cap : Nat} {Reg : List Nat} (rest : List Sym) : ∀ {A : Abs} {c : Nat} {cs : List Nat} {xs : List Sym},
    Inv A Reg c cs xs → (∀ y ∈ rest.head?, ∀ a ∈ ar A c, a.1 < y) → arcCount A + rest.length + 1 < cap + 1 →
    (rest ≠ [] → arcCount A + rest.length < cap) →
    ∃ A' c' cs', addRest (absOps cap) A c rest = some (c', A') ∧ Inv A' Reg c' cs' (rest.reverse ++ xs) ∧
      (rest = [] → A' = A ∧ c' = c) ∧ (rest ≠ [] → ar A' c' = []) ∧ (∀ v, Acc A' 0 v ↔ Acc A 0 v) ∧
      arcCount A' = arcCount A + rest.length ∧ Agree A A' Reg := by
  induction rest with
  | nil =>
    intro A c cs xs hI _ _ _
    exact ⟨A, c, cs, rfl, hI, fun _ => ⟨rfl, rfl⟩, fun h => absurd rfl h, fun _ => Iff.rfl, rfl, fun _ _ => rfl⟩
  | cons y w ih =>
    intro A c cs xs hI hy hcap hcap'
    have hcap'' := hcap' (by simp)
    simp only [List.length_cons] at hcap hcap''
    obtain ⟨A1, e1, i1, n1, a1, c1, g1⟩ := push (cap := cap) hI (y := y) (hy y rfl) (by omega)
    obtain ⟨A2, c2, cs2, e2, i2, z2, n2, a2, k2, g2⟩ := ih i1 (by intro z _ a ha; rw [n1] at ha; simp at ha)
      (by omega) (by intro _; omega)
    unfold addRest
    rw [e1]
    refine ⟨A2, c2, cs2, e2, by simpa using i2, by simp, ?_, fun v => (a2 v).trans (a1 v), by
      rw [k2, c1, List.length_cons]; omega, fun s hs => (g2 s hs).trans (g1 s hs)⟩
    intro _
    by_cases hw : w = []
    · obtain ⟨rfl, rfl⟩ := z2 hw
      exact n1
    · exact n2 hw

/-- The flag of the last state is set. -/
theorem setEnd_spec {cap : Nat} {A : Abs} {Reg : List Nat} {c : Nat} {cs : List Nat} {xs : List Sym} (hI : Inv A Reg c cs xs) :
    ∃ A', (absOps cap).setEnd A c = some A' ∧ Inv A' Reg c cs xs ∧ fi A' c = true ∧ ar A' c = ar A c ∧
      (∀ v, Acc A' 0 v ↔ Acc A 0 v ∨ v = xs.reverse) ∧ arcCount A' = arcCount A ∧ Agree A A' Reg := by
  have hcl : c < A.length := (hI.cover c).2 (by simp)
  have hm : ∀ t ∈ Reg, ∀ a ∈ ar A t, a.2 ∈ Reg := fun t ht => hI.glob.arcs_mem ht
  refine ⟨A.modify c (fun s => (true, s.2)), if_pos hcl, ?_⟩
  have hcnt := count_modify hcl (fun s => (true, s.2))
  have hsc' := sg_modify A (fun s => (true, s.2)) hcl
  have hlen' : (A.modify c (fun s => (true, s.2))).length = A.length := by simp
  generalize A.modify c (fun s => (true, s.2)) = A' at *
  have hsg : ∀ s, s ≠ c → sg A' s = sg A s := by intro s h1; rw [hsc', if_neg h1]
  have hapc : sg A' c = (true, ar A c) := by rw [hsc', if_pos rfl]; rfl
  have hac : ar A' c = ar A c := by rw [ar_eq, hapc]
  have hag : Agree A A' Reg := fun s hs => hsg s (fun e => hI.disj c (by simp) (e ▸ hs))
  have hagc : Agree A A' cs := by
    intro s hs
    have h1 := below_lt hI.below s hs
    exact hsg s (by omega)
  refine ⟨?_, by rw [fi_eq, hapc], hac, ?_, ?_, hag⟩
  · refine ⟨?_, ?_, hI.disj, below_frame hI.glob hag hagc hI.below, ?_, ?_, shut_frame hag hI.shut⟩
    · refine glob_frame hI.glob hag ?_ ?_
      · intro r hr; have := hI.glob.lt r hr; omega
      · intro s hs
        by_cases hsc : s = c
        · rw [hsc, hac]; exact hI.glob.sorted c
        · have : ar A' s = ar A s := congrArg Prod.snd (hsg s hsc)
          rw [this]; exact hI.glob.sorted s
    · intro s; rw [hlen']; exact hI.cover s
    · intro a ha; rw [hac] at ha; exact hI.head a ha
    · intro r hr h1
      exact good_frame hI.glob hag (fun a ha _ => by rw [hac]; exact ha) (hI.good r hr h1)
  · have hc : ∀ v, Acc A' c v ↔ Acc A c v ∨ v = [] := by
      intro v
      cases v with
      | nil => simp only [Acc]; rw [fi_eq, hapc]; simp
      | cons z v =>
        simp only [Acc, hac]
        constructor
        · rintro ⟨q, h1, h2⟩
          exact .inl ⟨q, h1, (acc_frame hm hag v (hI.head _ h1)).1 h2⟩
        · rintro (⟨q, h1, h2⟩ | h)
          · exact ⟨q, h1, (acc_frame hm hag v (hI.head _ h1)).2 h2⟩
          · simp at h
    intro v
    have := acc_lift hI.glob hag (fun u => u = []) hagc hI.below hc v
    rw [this]; simp
  · dsimp only at hcnt
    rw [← ar_eq] at hcnt
    omega

/-! ### Following the last word -/

theorem delta_abs {cap : Nat} {A : Abs} {p : Nat} (hp : p < A.length) (hs : (ar A p).Pairwise (fun a b => a.1 < b.1)) (x : Sym) :
    ∃ r, (absOps cap).delta A p x = some r ∧ ∀ q, r = some q ↔ (x, q) ∈ ar A p := by
  refine ⟨_, if_pos hp, ?_⟩
  revert hs
  generalize ar A p = L
  intro hs
  induction L with
  | nil => simp [checkFound]
  | cons a l ih =>
    rw [List.pairwise_cons] at hs
    intro q
    rw [List.dropWhile_cons, arcLt_zero]
    by_cases hlt : symLt a.1 x = true
    · have hne : a.1 ≠ x := by
        intro e; rw [e, symLt_order.irrefl] at hlt; simp at hlt
      rw [if_pos hlt, ih hs.2 q, List.mem_cons]
      constructor
      · exact .inr
      · rintro (h | h)
        · subst h; exact absurd rfl hne
        · exact h
    · rw [if_neg hlt, checkFound]
      by_cases e : x = a.1
      · rw [if_pos e]
        simp only [List.head?_cons, Option.map_some, Option.some.injEq, List.mem_cons]
        constructor
        · rintro rfl; exact .inl (by rw [e])
        · rintro (h | h)
          · rw [← h]
          · have := hs.1 _ h
            rw [← e] at this
            exact absurd this (by simp)
      · rw [if_neg e]
        simp only [List.head?_nil, Option.map_none, reduceCtorEq, false_iff, List.mem_cons, not_or]
        refine ⟨?_, ?_⟩
        · rintro rfl; exact e rfl
        · intro h
          have h1 := hs.1 _ h
          simp only [symLt, decide_eq_true_eq] at hlt
          exact hlt h1

theorem walk_below {cap : Nat} {A : Abs} {Reg : List Nat} (g : Glob A Reg) {cs : List Nat} : ∀ {d : Nat} {xs : List Sym} (rest : List Sym),
    (∀ s ∈ cs, s < A.length) → Below A Reg d cs xs →
    walk (absOps cap) A 0 (xs.reverse ++ rest) = walk (absOps cap) A d rest := by
  induction cs with
  | nil =>
    intro d xs rest _ hb
    cases xs with
    | nil => have : d = 0 := hb; subst this; rfl
    | cons => exact hb.elim
  | cons c cs ih =>
    intro d xs rest hl hb
    cases xs with
    | nil => exact hb.elim
    | cons x xs =>
      obtain ⟨b1, ⟨init, b2, b3⟩, b4, b5, b6⟩ := hb
      rw [List.reverse_cons, List.append_assoc, List.singleton_append, ih (x :: rest) (fun s hs => hl s (by simp [hs])) b6]
      obtain ⟨r, e1, e2⟩ := delta_abs (cap := cap) (hl c (by simp)) (g.sorted c) x
      have := (e2 d).2 (by rw [b2]; simp)
      subst this
      conv => lhs; unfold walk
      rw [e1]

theorem walk_stop {cap : Nat} {A : Abs} {p : Nat} (hp : p < A.length) (hs : (ar A p).Pairwise (fun a b => a.1 < b.1))
    {rest : List Sym} (hy : ∀ y ∈ rest.head?, ∀ a ∈ ar A p, a.1 < y) :
    walk (absOps cap) A p rest = some (p, rest) := by
  cases rest with
  | nil => rfl
  | cons y rest =>
    obtain ⟨r, e1, e2⟩ := delta_abs (cap := cap) hp hs y
    unfold walk
    rw [e1]
    cases r with
    | none => rfl
    | some q =>
      have := hy y rfl _ ((e2 q).1 rfl)
      exact absurd this (by simp)

/-! ### The loop -/

/-- Two sorted words: the first is a prefix, or they part. -/
theorem le_split {u w : List Sym} (h : u ≤ w) : (∃ rest, w = u ++ rest) ∨
    ∃ v x u' y w', u = v ++ x :: u' ∧ w = v ++ y :: w' ∧ x < y := by
  induction u generalizing w with
  | nil => exact .inl ⟨w, rfl⟩
  | cons a u ih =>
    cases w with
    | nil => exact absurd h (by simp)
    | cons b w =>
      rw [List.cons_le_cons_iff] at h
      rcases h with h | ⟨rfl, h⟩
      · exact .inr ⟨[], a, u, b, w, rfl, rfl, h⟩
      · rcases ih h with ⟨rest, rfl⟩ | ⟨v, x, u', y, w', rfl, rfl, hxy⟩
        · exact .inl ⟨rest, rfl⟩
        · exact .inr ⟨a :: v, x, u', y, w', rfl, rfl, hxy⟩

/-- Between two words. -/
structure Mid (h : Bool × List (Sym × Nat) → Nat) (A : Abs) (reg : List Entry) (prev : List Sym) : Prop where
  ex : ∃ Reg c cs, RegOk h A reg Reg ∧ Inv A Reg c cs prev.reverse ∧ ar A c = [] ∧ (prev ≠ [] → fi A c = true)

theorem addEnd_spec {cap : Nat} {h : Bool × List (Sym × Nat) → Nat} {A : Abs} {reg : List Entry} {Reg : List Nat} {c : Nat}
    {cs : List Nat} {xs : List Sym} (hI : Inv A Reg c cs xs) (hreg : RegOk h A reg Reg) {rest : List Sym}
    (hy : ∀ y ∈ rest.head?, ∀ a ∈ ar A c, a.1 < y) (hne : rest = [] → ar A c = [])
    (hcap : arcCount A + rest.length < cap) :
    ∃ A', addEnd (absOps cap) A reg c rest = some (A', reg) ∧ Mid h A' reg (xs.reverse ++ rest) ∧
      (∀ v, Acc A' 0 v ↔ Acc A 0 v ∨ v = xs.reverse ++ rest) ∧ arcCount A' = arcCount A + rest.length := by
  obtain ⟨A1, c1, cs1, e1, i1, z1, n1, a1, k1, g1⟩ := addRest_spec (cap := cap) rest hI hy (by omega) (fun _ => hcap)
  obtain ⟨A2, e2, i2, f2, r2, a2, k2, g2⟩ := setEnd_spec (cap := cap) i1
  refine ⟨A2, ?_, ⟨Reg, c1, cs1, ?_, ?_, ?_, fun _ => f2⟩, ?_, by omega⟩
  · unfold addEnd
    rw [e1]
    dsimp only
    rw [e2]
  · exact regOk_frame (regOk_frame hreg g1) g2
  · simpa using i2
  · rw [r2]
    by_cases hr : rest = []
    · obtain ⟨rfl, rfl⟩ := z1 hr; exact hne hr
    · exact n1 hr
  · intro v
    rw [a2, a1]; simp

theorem below_nodup {A : Abs} {Reg : List Nat} {cs : List Nat} : ∀ {d : Nat} {xs : List Sym}, Below A Reg d cs xs → cs.Nodup := by
  induction cs with
  | nil => intro d xs _; exact List.nodup_nil
  | cons c cs ih =>
    intro d xs hb
    cases xs with
    | nil => exact hb.elim
    | cons x xs =>
      rw [List.nodup_cons]
      refine ⟨?_, ih hb.2.2.2.2⟩
      intro hm
      have := below_lt hb.2.2.2.2 c hm
      omega

theorem incWord_spec {cap : Nat} {h : Bool × List (Sym × Nat) → Nat} {A : Abs} {reg : List Entry} {prev w : List Sym}
    (hM : Mid h A reg prev) (hle : prev ≤ w) (hcap : arcCount A + w.length < cap) :
    ∃ A' reg', incWord (absOps cap) h A reg w = some (A', reg') ∧ Mid h A' reg' w ∧
      (∀ v, Acc A' 0 v ↔ Acc A 0 v ∨ v = w) ∧ arcCount A' ≤ arcCount A + w.length := by
  obtain ⟨Reg, c, cs, hreg, hI, hc, hf⟩ := hM.ex
  have hall : ∀ s ∈ c :: cs, s < A.length := fun s hs => (hI.cover s).2 (.inr hs)
  have hlen := below_length hI.below
  unfold incWord
  rcases le_split hle with ⟨rest, rfl⟩ | ⟨v, x, u', y, w', rfl, rfl, hxy⟩
  · have hw := walk_below (cap := cap) hI.glob rest (fun s hs => hall s (by simp [hs])) hI.below
    rw [List.reverse_reverse] at hw
    have hy : ∀ y ∈ rest.head?, ∀ a ∈ ar A c, a.1 < y := by intro y _ a ha; rw [hc] at ha; simp at ha
    rw [hw, walk_stop (hall c (by simp)) (hI.glob.sorted c) hy]
    dsimp only
    have : rorIf (absOps cap) h A reg c = some (A, reg) := by
      unfold rorIf; rw [arcs_abs (hall c (by simp)), hc]
    rw [this]
    dsimp only
    simp only [List.length_append] at hcap
    obtain ⟨A', e, m, a, k⟩ := addEnd_spec (cap := cap) hI hreg hy (fun _ => hc) (by omega)
    rw [List.reverse_reverse] at m a
    refine ⟨A', reg, e, m, a, ?_⟩
    rw [k, List.length_append]; omega
  · have hxs : (v ++ x :: u').reverse = (u'.reverse ++ [x]) ++ v.reverse := by simp
    rw [hxs] at hI
    have hlen' : cs.length = u'.length + 1 + v.length := by
      rw [hlen]; simp; omega
    obtain ⟨ds, p, cs', rfl, hds⟩ : ∃ ds p cs', cs = ds ++ p :: cs' ∧ ds.length = u'.length := by
      refine ⟨cs.take u'.length, cs[u'.length]'(by omega), cs.drop (u'.length + 1), ?_, by simp; omega⟩
      rw [List.getElem_cons_drop, List.take_append_drop]
    have hbp : Below A Reg p cs' v.reverse := below_drop (by simp [hds]) hI.below
    have hpl : p < A.length := hall p (by simp)
    have hw := walk_below (cap := cap) hI.glob (y :: w') (fun s hs => hall s (by simp [hs])) hbp
    rw [List.reverse_reverse] at hw
    -- the arcs of `p` end with `x`
    have hpa : ∃ init d, ar A p = init ++ [(x, d)] := by
      rcases List.eq_nil_or_concat ds with rfl | ⟨ds', d', e⟩
      · have : u' = [] := List.length_eq_zero_iff.1 (by simpa using hds.symm)
        subst this
        obtain ⟨_, ⟨init, b2, _⟩, _⟩ := hI.below
        exact ⟨init, c, b2⟩
      · subst e
        rw [List.concat_eq_append] at hI hds
        simp only [List.length_append, List.length_singleton] at hds
        have hb : Below A Reg c (ds' ++ d' :: p :: cs') (u'.reverse ++ x :: v.reverse) := by simpa using hI.below
        obtain ⟨_, ⟨init, b2, _⟩, _⟩ := below_last (by simp; omega) hb
        exact ⟨init, d', b2⟩
    obtain ⟨init, d, hpa⟩ := hpa
    have hsort := hI.glob.sorted p
    have hle : ∀ a ∈ ar A p, a.1 < y := by
      intro a ha
      rw [hpa] at ha hsort
      rw [List.pairwise_append] at hsort
      simp only [List.mem_append, List.mem_singleton] at ha
      rcases ha with ha | rfl
      · exact UInt8.lt_trans (hsort.2.2 a ha (x, d) (by simp)) hxy
      · exact hxy
    rw [hw, walk_stop hpl (hI.glob.sorted p) (by
      intro z hz; simp only [List.head?_cons, Option.mem_def, Option.some.injEq] at hz; subst hz; exact hle)]
    dsimp only
    have hAlen : ds.length < A.length := by
      have h1 : (ds ++ p :: cs').Nodup := by
        exact below_nodup hI.below
      have h2 : (ds ++ p :: cs').length ≤ (List.range A.length).length := by
        apply List.Subperm.length_le
        apply h1.subperm
        intro s hs
        rw [List.mem_range]; exact hall s (List.mem_cons_of_mem _ hs)
      simp only [List.length_append, List.length_cons, List.length_range] at h2
      omega
    obtain ⟨A1, reg1, Reg1, e1, r1, i1, n1, k1⟩ := ror_spec (cap := cap) hreg hc (hf (by simp)) ds A.length p cs'
      (u'.reverse ++ [x]) v.reverse hAlen (by simp [hds]) hI
    have : rorIf (absOps cap) h A reg p = some (A1, reg1) := by
      unfold rorIf
      rw [arcs_abs hpl]
      cases hap : ar A p with
      | nil => rw [hap] at hpa; simp at hpa
      | cons a l => exact e1
    rw [this]
    dsimp only
    have hsy : ∀ a ∈ ar A1 p, a.1 < y := by
      intro a ha
      have h1 : a.1 ∈ (ar A1 p).map (·.1) := List.mem_map_of_mem ha
      rw [k1.syms, List.mem_map] at h1
      obtain ⟨b, hb, e⟩ := h1
      rw [← e]; exact hle b hb
    have hk1 := k1.count
    simp only [List.length_append, List.length_cons] at hcap
    obtain ⟨A', e, m, a, k⟩ := addEnd_spec (cap := cap) (rest := y :: w') i1 r1 (by
      intro z hz; simp only [List.head?_cons, Option.mem_def, Option.some.injEq] at hz; subst hz; exact hsy)
      (by simp) (by simp only [List.length_cons]; omega)
    rw [List.reverse_reverse] at m a
    refine ⟨A', reg1, e, m, ?_, ?_⟩
    · intro z; rw [a, k1.acc]
    · rw [k]; simp only [List.length_append, List.length_cons]; omega

theorem incLoop_spec {cap : Nat} {h : Bool × List (Sym × Nat) → Nat} (ws : List (List Sym)) : ∀ {A : Abs} {reg : List Entry} {prev : List Sym},
    Mid h A reg prev → (prev :: ws).Pairwise (· ≤ ·) → arcCount A + (ws.map List.length).sum < cap →
    ∃ A' reg', incLoop (absOps cap) h A reg ws = some (A', reg') ∧ Mid h A' reg' ((prev :: ws).getLast (by simp)) ∧
      (∀ v, Acc A' 0 v ↔ Acc A 0 v ∨ v ∈ ws) := by
  induction ws with
  | nil => intro A reg prev hM _ _; exact ⟨A, reg, rfl, hM, by simp⟩
  | cons w ws ih =>
    intro A reg prev hM hp hcap
    rw [List.pairwise_cons] at hp
    simp only [List.map_cons, List.sum_cons] at hcap
    obtain ⟨A1, reg1, e1, m1, a1, k1⟩ := incWord_spec (cap := cap) hM (hp.1 w (by simp)) (by omega)
    obtain ⟨A2, reg2, e2, m2, a2⟩ := ih m1 hp.2 (by omega)
    refine ⟨A2, reg2, ?_, ?_, ?_⟩
    · unfold incLoop; rw [e1]; exact e2
    · rw [List.getLast_cons (by simp)]; exact m2
    · intro v; rw [a2, a1, List.mem_cons, or_assoc]

/-- The automaton before the first word. -/
theorem mid_start (h : Bool × List (Sym × Nat) → Nat) : Mid h [(false, [])] [] [] := by
  have e : ∀ p, ar [(false, [])] p = [] := by
    intro p; cases p with
    | zero => rfl
    | succ p => rfl
  refine ⟨[], 0, [], ⟨rfl, by simp⟩, ⟨⟨by simp, List.nodup_nil, by simp, by simp, ?_, by simp⟩, ?_, by simp, rfl, ?_, by simp,
    by simp [Shut]⟩, rfl, by simp⟩
  · intro p; rw [e]; exact List.Pairwise.nil
  · intro s; simp
  · intro a ha; rw [e] at ha; simp at ha

/-- The whole construction. -/
theorem minimizeIncremental_spec {cap : Nat} (h : Bool × List (Sym × Nat) → Nat) {ws : List (List Sym)}
    (hs : ws.Pairwise (· ≤ ·)) (hne : ∃ w ∈ ws, w ≠ []) (hcap : (ws.map List.length).sum < cap) :
    ∃ A Reg, minimizeIncremental (absOps cap) h ws = some A ∧ Inv A Reg 0 [] [] ∧ ar A 0 ≠ [] ∧ ∀ v, Acc A 0 v ↔ v ∈ ws := by
  obtain ⟨A1, reg1, e1, m1, a1⟩ := incLoop_spec (cap := cap) ws (mid_start h) (by
      rw [List.pairwise_cons]; exact ⟨fun w _ => List.nil_le w, hs⟩) (by simpa [arcCount] using hcap)
  have hlast : (([] : List Sym) :: ws).getLast (by simp) ≠ [] := by
    obtain ⟨w, hw, hwn⟩ := hne
    intro e
    obtain ⟨ws', z, rfl⟩ : ∃ ws' z, ws = ws' ++ [z] := by
      rcases List.eq_nil_or_concat ws with rfl | ⟨ws', z, e⟩
      · simp at hw
      · exact ⟨ws', z, by rw [e, List.concat_eq_append]⟩
    have hz : z = [] := by
      rw [List.getLast_cons (by simp), List.getLast_append_singleton] at e; exact e
    subst hz
    simp only [List.mem_append, List.mem_singleton] at hw
    rcases hw with hw | hw
    · rw [List.pairwise_append] at hs
      have := hs.2.2 w hw [] (by simp)
      cases w with
      | nil => exact hwn rfl
      | cons => exact absurd this (by simp)
    · exact hwn hw
  generalize (([] : List Sym) :: ws).getLast (by simp) = prev at *
  obtain ⟨Reg, c, cs, hreg, hI, hc, hf⟩ := m1.ex
  have hlen := below_length hI.below
  obtain ⟨ds, p, rfl⟩ : ∃ ds p, cs = ds ++ [p] := by
    rcases List.eq_nil_or_concat cs with rfl | ⟨ds, p, e⟩
    · simp at hlen; exact absurd hlen.symm (by simpa using hlast)
    · exact ⟨ds, p, by rw [e, List.concat_eq_append]⟩
  have hp : p = 0 := by
    have := below_drop (xs := []) (ys := prev.reverse) (cs := []) (by simpa using hlen.symm) (by simpa using hI.below)
    exact this
  subst hp
  have hAlen : ds.length < A1.length := by
    have h1 : (ds ++ [0]).Nodup := below_nodup hI.below
    have h2 : (ds ++ [0]).length ≤ (List.range A1.length).length := by
      apply List.Subperm.length_le
      apply h1.subperm
      intro s hs
      rw [List.mem_range]; exact (hI.cover s).2 (.inr (List.mem_cons_of_mem _ hs))
    simp only [List.length_append, List.length_cons, List.length_range, List.length_nil] at h2
    omega
  obtain ⟨A2, reg2, Reg2, e2, r2, i2, n2, k2⟩ := ror_spec (cap := cap) hreg hc (hf hlast) ds A1.length 0 []
      prev.reverse [] hAlen (by simpa using hlen.symm) (by simpa using hI)
  refine ⟨A2, Reg2, ?_, i2, n2, ?_⟩
  · unfold minimizeIncremental
    have : ((absOps cap).addState (absOps cap).empty true).2 = [(false, [])] := rfl
    rw [this, e1]
    show (ror (absOps cap) h A1.length A1 reg1 0).map _ = _
    rw [e2]; rfl
  · intro v
    rw [k2.acc, a1]
    have : ¬ Acc [(false, [])] 0 v := by
      cases v with
      | nil => simp [Acc, fi]
      | cons x v => simp [Acc, ar]
    simp [this]

end Verif.Fsa
