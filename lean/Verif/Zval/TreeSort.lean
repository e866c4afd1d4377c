import Verif.Zval.TreeEdit
import Mathlib.Data.List.Induction

/-! # Lemmas about sorting the subtrees -/

namespace Verif.Zval

/-- The subtree goes behind the last one with the property. -/
def place (p : Nat → Bool) (x : Nat) : List Nat → List Nat
  | [] => [x]
  | y :: s => if (y :: s).any p then y :: place p x s else x :: y :: s

theorem place_eq {p : Nat → Bool} {x : Nat} {d : List Nat} (hd : ∀ e ∈ d, p e = false) :
    ∀ b : List Nat, (b = [] ∨ ∃ b' y, b = b' ++ [y] ∧ p y = true) →
      place p x (b ++ d) = b ++ x :: d := by
  intro b
  induction b with
  | nil =>
    intro _
    cases d with
    | nil => rfl
    | cons y d =>
      simp only [List.nil_append, place]
      rw [if_neg]
      intro h
      obtain ⟨e, he, hp⟩ := List.any_eq_true.mp h
      rw [hd e he] at hp
      simp at hp
  | cons y b ih =>
    intro h
    have hlast : ∃ b' z, y :: b = b' ++ [z] ∧ p z = true := by
      rcases h with h | h
      · simp at h
      · exact h
    obtain ⟨b', z, e, hz⟩ := hlast
    have hmem : z ∈ y :: b := by rw [e]; simp
    simp only [List.cons_append, place]
    rw [if_pos (List.any_eq_true.mpr ⟨z, by
      rw [← List.cons_append]; exact List.mem_append_left _ hmem, hz⟩)]
    congr 1
    refine ih ?_
    cases b' with
    | nil =>
      simp only [List.nil_append, List.cons.injEq] at e
      exact Or.inl e.2
    | cons w b' =>
      simp only [List.cons_append, List.cons.injEq] at e
      exact Or.inr ⟨b', z, e.2, hz⟩

theorem place_split (p : Nat → Bool) (x : Nat) : ∀ s : List Nat, ∃ b d, s = b ++ d ∧
    place p x s = b ++ x :: d ∧ (∀ e ∈ d, p e = false) ∧
    (b = [] ∨ ∃ b' y, b = b' ++ [y] ∧ p y = true) := by
  intro s
  induction s with
  | nil => exact ⟨[], [], rfl, rfl, by simp, Or.inl rfl⟩
  | cons y s ih =>
    by_cases h : (y :: s).any p = true
    · obtain ⟨b, d, e1, e2, e3, e4⟩ := ih
      refine ⟨y :: b, d, by rw [e1]; rfl, ?_, e3, Or.inr ?_⟩
      · simp only [place]
        rw [if_pos h, e2]
        rfl
      · rcases e4 with e4 | ⟨b', z, e4, hz⟩
        · subst e4
          refine ⟨[], y, rfl, ?_⟩
          obtain ⟨e, he, hp⟩ := List.any_eq_true.mp h
          rcases List.mem_cons.mp he with rfl | he
          · exact hp
          · rw [e1] at he
            rw [e3 e he] at hp
            simp at hp
        · exact ⟨y :: b', z, by rw [e4]; rfl, hz⟩
    · refine ⟨[], y :: s, rfl, ?_, ?_, Or.inl rfl⟩
      · simp only [place]
        rw [if_neg h]
        rfl
      · intro e he
        by_contra hp
        exact h (List.any_eq_true.mpr ⟨e, he, by simpa using hp⟩)

/-- What the sorting does to the list of the subtrees. -/
def sortKids (rank : Nat → Option Nat) : List Nat → List Nat
  | [] => []
  | x :: s =>
    (rank x).elim (x :: sortKids rank s)
      (fun q => place (fun e => (rank e).any (· < q)) x (sortKids rank s))

/-- The subtrees with numbers are in their order. -/
def Ordered (rank : Nat → Option Nat) (l : List Nat) : Prop :=
  l.Pairwise fun a b => ∀ u v, rank a = some u → rank b = some v → u ≤ v

theorem place_ordered {rank : Nat → Option Nat} {s : List Nat} {x q : Nat} (hs : Ordered rank s)
    (hx : rank x = some q) :
    Ordered rank (place (fun e => (rank e).any (· < q)) x s) ∧
      ∀ v, (place (fun e => (rank e).any (· < q)) x s).filter (fun e => rank e = v) =
        if v = some q then x :: s.filter (fun e => rank e = v)
        else s.filter (fun e => rank e = v) := by
  obtain ⟨b, d, e1, e2, e3, e4⟩ := place_split (fun e => (rank e).any (· < q)) x s
  rw [e2]
  have hb : ∀ e ∈ b, ∀ u, rank e = some u → u < q := by
    intro e he u hu
    rcases e4 with rfl | ⟨b', y, rfl, hy⟩
    · simp at he
    · cases hr : rank y with
      | none => simp [hr] at hy
      | some w =>
        simp only [hr, Option.any_some, decide_eq_true_eq] at hy
        rcases List.mem_append.mp he with he | he
        · have hs' := hs
          rw [e1] at hs'
          have h1 := (List.pairwise_append.mp (List.pairwise_append.mp hs').1).2.2 e he y (by simp)
          have := h1 u w hu hr
          omega
        · rw [List.mem_singleton] at he
          subst he
          rw [hr] at hu
          simp only [Option.some.injEq] at hu
          omega
  have hd : ∀ e ∈ d, ∀ u, rank e = some u → q ≤ u := by
    intro e he u hu
    have := e3 e he
    simp only [hu, Option.any_some, decide_eq_false_iff_not] at this
    omega
  constructor
  · unfold Ordered at hs ⊢
    rw [e1] at hs
    obtain ⟨p1, p2, p3⟩ := List.pairwise_append.mp hs
    rw [List.pairwise_append]
    refine ⟨p1, ?_, ?_⟩
    · rw [List.pairwise_cons]
      refine ⟨?_, p2⟩
      intro e he u v hu hv
      rw [hx] at hu
      simp only [Option.some.injEq] at hu
      have := hd e he v hv
      omega
    · intro a ha e he
      rcases List.mem_cons.mp he with rfl | he
      · intro u v hu hv
        have := hb a ha u hu
        rw [hx] at hv
        simp only [Option.some.injEq] at hv
        omega
      · exact p3 a ha e he
  · intro v
    rw [e1, List.filter_append, List.filter_cons, List.filter_append]
    by_cases hv : v = some q
    · subst hv
      rw [if_pos rfl, hx, if_pos (by simp)]
      have : b.filter (fun e => rank e = some q) = [] := by
        rw [List.filter_eq_nil_iff]
        intro e he h
        simp only [decide_eq_true_eq] at h
        have := hb e he q h
        omega
      rw [this]
      rfl
    · rw [if_neg hv, hx, if_neg (by simpa using Ne.symm hv)]

theorem sortKids_ordered (rank : Nat → Option Nat) : ∀ l : List Nat, Ordered rank (sortKids rank l) ∧
    ∀ v, (sortKids rank l).filter (fun e => rank e = v) = l.filter (fun e => rank e = v) := by
  intro l
  induction l with
  | nil => exact ⟨List.Pairwise.nil, fun _ => rfl⟩
  | cons x s ih =>
    cases hx : rank x with
    | none =>
      simp only [sortKids, hx, Option.elim]
      refine ⟨?_, ?_⟩
      · unfold Ordered
        rw [List.pairwise_cons]
        refine ⟨?_, ih.1⟩
        intro e _ u v hu
        rw [hx] at hu
        simp at hu
      · intro v
        rw [List.filter_cons, List.filter_cons, ih.2 v]
    | some q =>
      simp only [sortKids, hx, Option.elim]
      obtain ⟨h1, h2⟩ := place_ordered ih.1 hx
      refine ⟨h1, ?_⟩
      intro v
      rw [h2 v, List.filter_cons, ih.2 v, hx]
      by_cases hv : v = some q
      · rw [if_pos hv, if_pos (by simp [hv])]
      · rw [if_neg hv, if_neg (by simpa using Ne.symm hv)]

theorem place_perm (p : Nat → Bool) (x : Nat) (s : List Nat) : (place p x s).Perm (x :: s) := by
  obtain ⟨b, d, e1, e2, -, -⟩ := place_split p x s
  rw [e2, e1]
  exact List.perm_middle

theorem sortKids_perm (rank : Nat → Option Nat) : ∀ l : List Nat, (sortKids rank l).Perm l := by
  intro l
  induction l with
  | nil => exact List.Perm.refl _
  | cons x s ih =>
    cases hx : rank x with
    | none =>
      simp only [sortKids, hx, Option.elim]
      exact ih.cons x
    | some q =>
      simp only [sortKids, hx, Option.elim]
      exact (place_perm _ x _).trans (ih.cons x)

/-! ## The heap -/

theorem getElem?_turned (a b d : List Nat) (x j : Nat) :
    (a ++ (b ++ x :: d))[j]? =
      if j < a.length then (a ++ x :: (b ++ d))[j]?
      else if j < a.length + b.length then (a ++ x :: (b ++ d))[j + 1]?
      else if j = a.length + b.length then some x
      else (a ++ x :: (b ++ d))[j]? := by
  split
  · rename_i h
    rw [List.getElem?_append_left h, List.getElem?_append_left h]
  · rename_i h
    rw [List.getElem?_append_right (by omega)]
    split
    · rename_i h2
      rw [List.getElem?_append_left (by omega), List.getElem?_append_right (by omega)]
      have : j + 1 - a.length = j - a.length + 1 := by omega
      rw [this, List.getElem?_cons_succ, List.getElem?_append_left (by omega)]
    · rename_i h2
      rw [List.getElem?_append_right (by omega)]
      split
      · rename_i h3
        have : j - a.length - b.length = 0 := by omega
        rw [this]
        rfl
      · rename_i h3
        rw [List.getElem?_append_right (by omega)]
        obtain ⟨m, hm⟩ : ∃ m, j - a.length - b.length = m + 1 :=
          ⟨j - a.length - b.length - 1, by omega⟩
        have e2 : j - a.length = (b.length + m) + 1 := by omega
        rw [hm, e2, List.getElem?_cons_succ, List.getElem?_cons_succ,
          List.getElem?_append_right (by omega)]
        congr 1; omega

theorem rotate_shows {h : Heap} {F : Forest} (sh : Shows h F) {t x : Nat} {a b d : List Nat}
    (hk : F.kids t = a ++ x :: (b ++ d)) :
    ∃ h', h.rotate t a.length (a.length + b.length) = some h' ∧ Keeps h h' ∧
      Shows h' (F.setKids t (a ++ (b ++ x :: d))) := by
  have hlen : (F.kids t).length = a.length + 1 + b.length + d.length := by
    rw [hk]; simp; omega
  have kd : ∀ i, i < (F.kids t).length → (F.kids t)[i]? = some ((F.kids t).getD i 0) :=
    fun i hi => getElem?_getD hi
  have hkx : (F.kids t)[a.length]? = some x := by
    rw [hk, List.getElem?_append_right (Nat.le_refl _)]; simp
  have hpx := (sh.place x t a.length).mp hkx
  obtain ⟨h2, e1, e2, e3, e4, e5⟩ := shiftDown_eq t (fun i => (F.kids t).getD i 0)
    b.length (a.length + 1) h (by omega)
    (by
      intro i i1 i2
      rw [sh.subtree t i (by omega)]
      exact getElem?_getD (by omega))
    (by
      intro i j h1 h2' h3 h4 e
      have e : (F.kids t).getD i 0 = (F.kids t).getD j 0 := e
      have a := kd i (by omega)
      have b := kd j (by omega)
      rw [← e] at b
      exact (sh.unique a b).2)
  unfold Heap.rotate
  have hsub : a.length + b.length - a.length = b.length := by omega
  rw [sh.get hkx, Option.bind_some, hsub, e1, Option.map_some]
  have keep := (e2.trans (keeps_setKid h2 t (a.length + b.length) x)).trans
    (keeps_setNumber _ x (a.length + b.length))
  refine ⟨_, rfl, keep, ?_⟩
  generalize hh3 : (h2.setKid t (a.length + b.length) x).setNumber x (a.length + b.length) = h3
  rw [hh3] at keep
  have num : ∀ y i, (h y).parent = some t → (h y).number = some i →
      (h3 y).number = some (if i < a.length then i else if i = a.length then a.length + b.length
        else if i ≤ a.length + b.length then i - 1 else i) := by
    intro y i hy1 hy2
    have hky := (sh.place y t i).mpr ⟨hy1, hy2⟩
    have hi : i < (F.kids t).length := (List.getElem?_eq_some_iff.mp hky).1
    rw [← hh3, number_setNumber, number_setKid]
    by_cases c0 : i = a.length
    · have : y = x := by
        subst c0
        rw [hkx] at hky
        simpa using hky.symm
      rw [if_pos this, if_neg (by omega), if_pos c0]
    · have hyx : y ≠ x := by
        rintro rfl
        exact c0 (sh.unique hky hkx).2
      rw [if_neg hyx]
      by_cases c1 : a.length < i ∧ i ≤ a.length + b.length
      · have e : (F.kids t).getD i 0 = y := by
          have := kd i hi
          rw [hky] at this
          simpa using this.symm
        have := e4 i (by omega) (by omega)
        simp only [e] at this
        rw [this, if_neg (by omega), if_neg c0, if_pos (by omega)]
      · rw [e5 y, hy2]
        · by_cases c2 : i < a.length
          · rw [if_pos c2]
          · rw [if_neg c2, if_neg c0, if_neg (by omega)]
        · intro j j1 j2 e
          have e : y = (F.kids t).getD j 0 := e
          have bb := kd j (by omega)
          rw [← e] at bb
          have := (sh.unique hky bb).2
          omega
  have num' : ∀ y, (h y).parent ≠ some t → (h3 y).number = (h y).number := by
    intro y hy
    rw [← hh3, number_setNumber, number_setKid, if_neg, e5 y]
    · intro j j1 j2 e
      have e : y = (F.kids t).getD j 0 := e
      have bb := kd j (by omega)
      rw [← e] at bb
      exact hy ((sh.place y t j).mp bb).1
    · rintro rfl
      exact hy hpx.1
  refine ⟨?_, ?_, ?_, ?_, ?_⟩
  · intro q
    rw [keep.count q, sh.count q]
    simp only [Forest.setKids]
    split
    · rename_i e
      rw [e, hlen]; simp; omega
    · rfl
  · intro q i
    simp only [Forest.setKids]
    intro hi
    rw [← hh3, subtree_setNumber, subtree_setKid, e3]
    by_cases hq : q = t
    · subst hq
      rw [if_pos rfl] at hi ⊢
      have hl2 : (a ++ (b ++ x :: d)).length = (F.kids q).length := by rw [hlen]; simp; omega
      rw [hl2] at hi
      rw [getElem?_turned, ← hk]
      by_cases c1 : i < a.length
      · rw [if_neg (by omega), if_neg (by omega), if_pos c1]
        exact sh.subtree q i hi
      · rw [if_neg c1]
        by_cases c2 : i < a.length + b.length
        · rw [if_neg (by omega), if_pos (by omega), if_pos c2]
          exact (kd (i + 1) (by omega)).symm
        · rw [if_neg c2]
          by_cases c3 : i = a.length + b.length
          · rw [if_pos ⟨rfl, c3⟩, if_pos c3]
          · rw [if_neg (by omega), if_neg (by omega), if_neg c3]
            exact sh.subtree q i hi
    · rw [if_neg hq] at hi ⊢
      rw [if_neg (by tauto), if_neg (by tauto)]
      exact sh.subtree q i hi
  · intro y q i
    rw [keep.parent y]
    simp only [Forest.setKids]
    by_cases hq : q = t
    · subst hq
      rw [if_pos rfl, getElem?_turned, ← hk]
      constructor
      · intro hm
        by_cases c1 : i < a.length
        · rw [if_pos c1] at hm
          have := (sh.place y q i).mp hm
          exact ⟨this.1, by rw [num y i this.1 this.2, if_pos c1]⟩
        · rw [if_neg c1] at hm
          by_cases c2 : i < a.length + b.length
          · rw [if_pos c2] at hm
            have := (sh.place y q (i + 1)).mp hm
            refine ⟨this.1, ?_⟩
            rw [num y (i + 1) this.1 this.2, if_neg (by omega), if_neg (by omega),
              if_pos (by omega)]
            rfl
          · rw [if_neg c2] at hm
            by_cases c3 : i = a.length + b.length
            · rw [if_pos c3] at hm
              simp only [Option.some.injEq] at hm
              subst hm
              refine ⟨hpx.1, ?_⟩
              rw [num x a.length hpx.1 hpx.2, if_neg (by omega), if_pos rfl, c3]
            · rw [if_neg c3] at hm
              have := (sh.place y q i).mp hm
              refine ⟨this.1, ?_⟩
              rw [num y i this.1 this.2, if_neg c1, if_neg (by omega), if_neg (by omega)]
      · rintro ⟨h1, h2'⟩
        cases en : (h y).number with
        | none =>
          have := (sh.root y).mpr en
          rw [h1] at this
          simp at this
        | some j =>
          rw [num y j h1 en] at h2'
          have hky := (sh.place y q j).mpr ⟨h1, en⟩
          simp only [Option.some.injEq] at h2'
          by_cases c1 : j < a.length
          · rw [if_pos c1] at h2'
            subst h2'
            rw [if_pos c1]; exact hky
          · rw [if_neg c1] at h2'
            by_cases c2 : j = a.length
            · rw [if_pos c2] at h2'
              rw [if_neg (by omega), if_neg (by omega), if_pos h2'.symm]
              rw [c2, hkx] at hky
              exact hky
            · rw [if_neg c2] at h2'
              by_cases c3 : j ≤ a.length + b.length
              · rw [if_pos c3] at h2'
                subst h2'
                rw [if_neg (by omega), if_pos (by omega)]
                have : j - 1 + 1 = j := by omega
                rw [this]; exact hky
              · rw [if_neg c3] at h2'
                subst h2'
                rw [if_neg (by omega), if_neg (by omega), if_neg (by omega)]
                exact hky
    · rw [if_neg hq, sh.place y q i]
      by_cases hpt : (h y).parent = some t
      · rw [hpt]
        simp only [Option.some.injEq]
        constructor
        · rintro ⟨h1, -⟩; exact absurd h1.symm hq
        · rintro ⟨h1, -⟩; exact absurd h1.symm hq
      · rw [num' y hpt]
  · intro y
    rw [keep.parent y]
    by_cases hpt : (h y).parent = some t
    · rw [hpt]
      cases en : (h y).number with
      | none =>
        have := (sh.root y).mpr en
        rw [hpt] at this
        simp at this
      | some j =>
        rw [num y j hpt en]; simp
    · rw [num' y hpt]; exact sh.root y
  · intro y
    rw [keep.label y]
    exact sh.label y

theorem lastSmaller_eq {h : Heap} {ranks : List (Z × Nat)} {t i q : Nat} (ρ : Nat → Option Nat) :
    ∀ k, (∀ j, i < j → j ≤ i + k → h.rankAt ranks t j = some (ρ j)) →
      ∃ j, h.lastSmaller ranks t i q k = some j ∧ i ≤ j ∧ j ≤ i + k ∧
        (j = i ∨ (ρ j).any (· < q) = true) ∧
        ∀ j', j < j' → j' ≤ i + k → (ρ j').any (· < q) = false := by
  intro k
  induction k with
  | zero =>
    intro _
    exact ⟨i, rfl, by omega, by omega, Or.inl rfl, by intros; omega⟩
  | succ k ih =>
    intro hr
    have h1 := hr (i + k + 1) (by omega) (by omega)
    obtain ⟨j, a1, a2, a3, a4, a5⟩ := ih (fun j j1 j2 => hr j j1 (by omega))
    unfold Heap.lastSmaller
    rw [h1, Option.bind_some]
    by_cases c : (ρ (i + k + 1)).any (· < q) = true
    · cases e : ρ (i + k + 1) with
      | none => rw [e] at c; simp at c
      | some w =>
        have c0 := c
        rw [e] at c
        simp only [Option.any_some, decide_eq_true_eq] at c
        simp only
        rw [if_pos c]
        exact ⟨_, rfl, by omega, by omega, Or.inr c0, by intros; omega⟩
    · refine ⟨j, ?_, a2, by omega, a4, ?_⟩
      · cases e : ρ (i + k + 1) with
        | none => exact a1
        | some w =>
          rw [e] at c
          simp only [Option.any_some, decide_eq_true_eq] at c
          simp only
          rw [if_neg c]
          exact a1
      · intro j' j1 j2
        by_cases cj : j' = i + k + 1
        · rw [cj]; simpa using c
        · exact a5 j' j1 (by omega)

/-- The number of a subtree. -/
def kidRank (h : Heap) (ranks : List (Z × Nat)) (t c : Nat) : Option Nat :=
  (refOf h t c).bind (rankOf ranks)

theorem rankAt_eq {h : Heap} {F : Forest} (sh : Shows h F) (ranks : List (Z × Nat)) {t i c : Nat}
    (hk : (F.kids t)[i]? = some c) : h.rankAt ranks t i = some (kidRank h ranks t c) := by
  unfold Heap.rankAt
  rw [sh.get hk]
  rfl

theorem kidRank_keeps {h h' : Heap} (k : Keeps h h') (ranks : List (Z × Nat)) (t : Nat) :
    kidRank h' ranks t = kidRank h ranks t := by
  funext c
  unfold kidRank refOf
  rw [k.fetch t _ (by simp)]

theorem setKids_self (F : Forest) (t : Nat) : F.setKids t (F.kids t) = F := by
  unfold Forest.setKids
  cases F with
  | mk kids label =>
    simp only [Forest.mk.injEq, and_true]
    funext q
    split
    · rename_i e; rw [e]
    · rfl

theorem setKids_setKids (F : Forest) (t : Nat) (l l' : List Nat) :
    (F.setKids t l).setKids t l' = F.setKids t l' := by
  unfold Forest.setKids
  simp only [Forest.mk.injEq, and_true]
  funext q
  split <;> rfl

theorem setKids_kids (F : Forest) (t : Nat) (l : List Nat) : (F.setKids t l).kids t = l := by
  simp [Forest.setKids]

theorem sortLoop_shows (ranks : List (Z × Nat)) (t : Nat) (F : Forest) (rank : Nat → Option Nat) :
    ∀ (a : List Nat) (s : List Nat) (h : Heap), Shows h (F.setKids t (a ++ sortKids rank s)) →
      kidRank h ranks t = rank →
      ∃ h', h.sortLoop ranks t a.length = some h' ∧ Keeps h h' ∧
        Shows h' (F.setKids t (sortKids rank (a ++ s))) := by
  intro a
  induction a using List.reverseRecOn with
  | nil =>
    intro s h sh _
    exact ⟨h, rfl, Keeps.refl h, sh⟩
  | append_singleton a x ih =>
    intro s h sh hrank
    have hk : (F.setKids t (a ++ [x] ++ sortKids rank s)).kids t = a ++ x :: sortKids rank s := by
      rw [setKids_kids]; simp
    have hkx : ((F.setKids t (a ++ [x] ++ sortKids rank s)).kids t)[a.length]? = some x := by
      rw [hk, List.getElem?_append_right (Nat.le_refl _)]; simp
    have hr := rankAt_eq sh ranks hkx
    rw [hrank] at hr
    have hlen : (a ++ [x]).length = a.length + 1 := by simp
    rw [hlen]
    unfold Heap.sortLoop
    rw [hr, Option.bind_some]
    have happ : a ++ [x] ++ s = a ++ x :: s := by simp
    rw [happ]
    cases hx : rank x with
    | none =>
      simp only
      have e : sortKids rank (x :: s) = x :: sortKids rank s := by simp [sortKids, hx]
      obtain ⟨h', h1, h2, h3⟩ := ih (x :: s) h (by rw [e]; simpa using sh) hrank
      exact ⟨h', h1, h2, h3⟩
    | some q =>
      simp only
      have hcount : (h t).count = a.length + 1 + (sortKids rank s).length := by
        rw [sh.count t, hk]; simp; omega
      have hcm : (h t).count - 1 - a.length = (sortKids rank s).length := by omega
      obtain ⟨j, b1, b2, b3, b4, b5⟩ := lastSmaller_eq (h := h) (ranks := ranks) (t := t) (q := q)
        (i := a.length) (fun j => rank ((sortKids rank s).getD (j - (a.length + 1)) 0))
        (sortKids rank s).length (by
          intro j j1 j2
          have hj : ((F.setKids t (a ++ [x] ++ sortKids rank s)).kids t)[j]? =
              some ((sortKids rank s).getD (j - (a.length + 1)) 0) := by
            rw [hk, List.getElem?_append_right (by omega)]
            have : j - a.length = (j - (a.length + 1)) + 1 := by omega
            rw [this, List.getElem?_cons_succ]
            exact getElem?_getD (by omega)
          rw [rankAt_eq sh ranks hj, hrank])
      rw [hcm, b1, Option.bind_some]
      -- the two parts of the rest
      have hsplit : sortKids rank s = (sortKids rank s).take (j - a.length) ++
          (sortKids rank s).drop (j - a.length) := (List.take_append_drop _ _).symm
      have hd : ∀ e ∈ (sortKids rank s).drop (j - a.length),
          (rank e).any (· < q) = false := by
        intro e he
        obtain ⟨m, hm⟩ := List.mem_iff_getElem?.mp he
        rw [List.getElem?_drop] at hm
        have hmlt := (List.getElem?_eq_some_iff.mp hm).1
        have h5 := b5 (a.length + 1 + (j - a.length + m)) (by omega) (by omega)
        have e1 : a.length + 1 + (j - a.length + m) - (a.length + 1) = j - a.length + m := by omega
        simp only [e1] at h5
        rw [List.getD_eq_getElem?_getD, hm] at h5
        exact h5
      have hb : (sortKids rank s).take (j - a.length) = [] ∨ ∃ b' y,
          (sortKids rank s).take (j - a.length) = b' ++ [y] ∧ (rank y).any (· < q) = true := by
        by_cases c : j = a.length
        · left; rw [c]; simp
        · right
          have hlt : j - a.length - 1 < (sortKids rank s).length := by omega
          refine ⟨(sortKids rank s).take (j - a.length - 1), (sortKids rank s)[j - a.length - 1], ?_, ?_⟩
          · have : j - a.length - 1 + 1 = j - a.length := by omega
            rw [← List.take_succ_eq_append_getElem hlt, this]
          · have h4 := b4.resolve_left c
            have e1 : j - (a.length + 1) = j - a.length - 1 := by omega
            rw [e1, List.getD_eq_getElem?_getD, List.getElem?_eq_getElem hlt] at h4
            exact h4
      have hplace := place_eq (x := x) hd ((sortKids rank s).take (j - a.length)) hb
      rw [← hsplit] at hplace
      have e : sortKids rank (x :: s) = (sortKids rank s).take (j - a.length) ++
          x :: (sortKids rank s).drop (j - a.length) := by
        simp only [sortKids, hx, Option.elim]
        exact hplace
      by_cases c : j = a.length
      · rw [if_neg (by simp [c])]
        have e' : sortKids rank (x :: s) = x :: sortKids rank s := by
          rw [e, c]; simp
        obtain ⟨h', h1, h2, h3⟩ := ih (x :: s) h (by rw [e']; simpa using sh) hrank
        exact ⟨h', h1, h2, h3⟩
      · rw [if_pos c]
        have hk2 : (F.setKids t (a ++ [x] ++ sortKids rank s)).kids t =
            a ++ x :: ((sortKids rank s).take (j - a.length) ++
              (sortKids rank s).drop (j - a.length)) := by rw [hk, ← hsplit]
        obtain ⟨h1, c1, c2, c3⟩ := rotate_shows sh hk2
        have hj : a.length + ((sortKids rank s).take (j - a.length)).length = j := by
          rw [List.length_take]; omega
        rw [hj] at c1
        rw [c1, Option.bind_some]
        rw [setKids_setKids, ← e] at c3
        obtain ⟨h', d1, d2, d3⟩ := ih (x :: s) h1 c3 (by rw [kidRank_keeps c2, hrank])
        exact ⟨h', d1, c2.trans d2, d3⟩

theorem sort_shows {h : Heap} {F : Forest} (sh : Shows h F) (ranks : List (Z × Nat)) (t : Nat) :
    ∃ h', h.sortByOrder ranks t = some h' ∧ Keeps h h' ∧
      Shows h' (F.setKids t (sortKids (kidRank h ranks t) (F.kids t))) := by
  unfold Heap.sortByOrder
  rw [sh.count t]
  rcases List.eq_nil_or_concat (F.kids t) with hk | ⟨a, x, hk⟩
  · rw [hk]
    refine ⟨h, rfl, Keeps.refl h, ?_⟩
    have : F.setKids t (sortKids (kidRank h ranks t) []) = F := by
      have := setKids_self F t
      rw [hk] at this
      exact this
    rw [this]; exact sh
  · rw [List.concat_eq_append] at hk
    rw [hk]
    have hl : (a ++ [x]).length - 1 = a.length := by simp
    rw [hl]
    refine sortLoop_shows ranks t F (kidRank h ranks t) a [x] h ?_ rfl
    have e : sortKids (kidRank h ranks t) [x] = [x] := by
      simp only [sortKids]
      cases kidRank h ranks t x <;> rfl
    rw [e, ← hk, setKids_self]
    exact sh

/-! ## The numbers of an order -/

theorem rank_at (a : Z) : ∀ (l r : List Item) (w : Nat), Item.ref a ∉ l →
    rankOf (orderRanks w (l ++ .ref a :: r)) a = some (w + l.count .less) := by
  intro l
  induction l with
  | nil => intro r w _; simp [orderRanks, rankOf]
  | cons i l ih =>
    intro r w hn
    have hn' : Item.ref a ∉ l := fun h => hn (List.mem_cons_of_mem _ h)
    cases i with
    | less =>
      simp only [List.cons_append, orderRanks]
      rw [ih r (w + 1) hn', List.count_cons_self]
      congr 1; omega
    | equal =>
      simp only [List.cons_append, orderRanks]
      rw [ih r w hn', List.count_cons_of_ne (by simp)]
    | ref s =>
      have hs : s ≠ a := by
        rintro rfl
        exact hn (List.mem_cons_self ..)
      have := ih r w hn'
      simp only [List.cons_append, orderRanks]
      rw [List.count_cons_of_ne (by simp)]
      unfold rankOf at this ⊢
      rw [List.find?_cons_of_neg (by simpa using hs)]
      exact this

theorem rank_none (a : Z) : ∀ (l : List Item) (w : Nat), Item.ref a ∉ l →
    rankOf (orderRanks w l) a = none := by
  intro l
  induction l with
  | nil => intro w _; rfl
  | cons i l ih =>
    intro w hn
    have hn' : Item.ref a ∉ l := fun h => hn (List.mem_cons_of_mem _ h)
    cases i with
    | less => exact ih (w + 1) hn'
    | equal => exact ih w hn'
    | ref s =>
      have hs : s ≠ a := by
        rintro rfl
        exact hn (List.mem_cons_self ..)
      have := ih w hn'
      unfold rankOf at this ⊢
      simp only [orderRanks]
      rw [List.find?_cons_of_neg (by simpa using hs)]
      exact this

end Verif.Zval
