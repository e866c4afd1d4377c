import Verif.Zval.TreeLemmas

/-! # The functions of syntactic trees do what they are for -/

namespace Verif.Zval

theorem getElem?_without (l r : List Nat) (c i : Nat) :
    (l ++ r)[i]? = if i < l.length then (l ++ c :: r)[i]? else (l ++ c :: r)[i + 1]? := by
  split
  · rename_i h
    rw [List.getElem?_append_left h, List.getElem?_append_left h]
  · rename_i h
    rw [List.getElem?_append_right (by omega), List.getElem?_append_right (by omega)]
    have : i + 1 - l.length = i - l.length + 1 := by omega
    rw [this, List.getElem?_cons_succ]

theorem dropRefs_subtree {h : Heap} (ht : Tidy h) (t c q i : Nat) :
    (h.dropRefs t c).subtree q i = h.subtree q i := by
  unfold Heap.dropRefs Heap.subtree Heap.upd
  by_cases hq : q = t
  · subst hq
    simp only [if_true]
    rw [fetch_delete_of_ne _ _ _ _ (by simp)]
    cases e : (h q).env.fetch (.tree c) with
    | none => rfl
    | some k =>
      obtain ⟨s, hs⟩ := ht q c _ (fetch_some_mem e)
      simp only [Option.some.injEq] at hs
      subst hs
      simp only
      rw [fetch_delete_of_ne _ _ _ _ (by simp)]
  · simp [hq]

theorem dropRefs_other {h : Heap} {t c q : Nat} (hq : q ≠ t) : (h.dropRefs t c) q = h q := by
  unfold Heap.dropRefs
  exact upd_other _ _ hq

theorem dropRefs_fields (h : Heap) (t c q : Nat) :
    ((h.dropRefs t c) q).count = (h q).count ∧ ((h.dropRefs t c) q).parent = (h q).parent ∧
      ((h.dropRefs t c) q).number = (h q).number ∧ ((h.dropRefs t c) q).label = (h q).label := by
  by_cases hq : q = t
  · subst hq
    unfold Heap.dropRefs
    rw [upd_same]
    exact ⟨rfl, rfl, rfl, rfl⟩
  · rw [dropRefs_other hq]
    exact ⟨rfl, rfl, rfl, rfl⟩

theorem dropRefs_mem {h : Heap} {t c q : Nat} {p : Z × Option Z}
    (hp : p ∈ ((h.dropRefs t c) q).env) : p ∈ (h q).env := by
  by_cases hq : q = t
  · subst hq
    unfold Heap.dropRefs at hp
    rw [upd_same] at hp
    have h1 := (List.mem_filter.mp hp).1
    cases e : (h q).env.fetch (.tree c) with
    | none => rw [e] at h1; exact h1
    | some k =>
      rw [e] at h1
      exact (List.mem_filter.mp h1).1
  · rw [dropRefs_other hq] at hp
    exact hp

theorem dropRefs_tidy {h : Heap} (ht : Tidy h) (t c : Nat) : Tidy (h.dropRefs t c) :=
  fun q d v hm => ht q d v (dropRefs_mem hm)

theorem delete_shows {h : Heap} {F : Forest} (sh : Shows h F) (ht : Tidy h) {t c : Nat}
    {l r : List Nat} (hk : F.kids t = l ++ c :: r) :
    ∃ h', h.deleteSubtree t c = some h' ∧ Tidy h' ∧ Shows h' (F.setKids t (l ++ r)) ∧
      (h' c).parent = none ∧ (h' c).number = none ∧
      (∀ p, (∀ i, p.1 ≠ Z.int i) → (p ∈ (h' t).env ↔ p ∈ ((h.dropRefs t c) t).env)) := by
  have hkc : (F.kids t)[l.length]? = some c := by
    rw [hk, List.getElem?_append_right (Nat.le_refl _)]; simp
  have hpl := (sh.place c t l.length).mp hkc
  have hlen : (F.kids t).length = l.length + 1 + r.length := by
    rw [hk]; simp; omega
  unfold Heap.deleteSubtree
  rw [if_neg (by simp [hpl.1]), hpl.2, Option.bind_some, if_neg (by simp [sh.get hkc])]
  simp only
  generalize hh1 : h.dropRefs t c = h1
  have s1 : ∀ q i, h1.subtree q i = h.subtree q i := by
    intro q i; rw [← hh1]; exact dropRefs_subtree ht t c q i
  have f1 : ∀ q, (h1 q).count = (h q).count ∧ (h1 q).parent = (h q).parent ∧
      (h1 q).number = (h q).number ∧ (h1 q).label = (h q).label := by
    intro q; rw [← hh1]; exact dropRefs_fields h t c q
  have t1 : Tidy h1 := by rw [← hh1]; exact dropRefs_tidy ht t c
  have kd : ∀ i, i < (F.kids t).length → (F.kids t)[i]? = some ((F.kids t).getD i 0) :=
    fun i hi => getElem?_getD hi
  have ecount : (h1 t).count = (F.kids t).length := by rw [(f1 t).1]; exact sh.count t
  rw [ecount]
  obtain ⟨h2, e1, e2, e3, e4, e5⟩ := shiftDown_eq t (fun i => (F.kids t).getD i 0)
    ((F.kids t).length - (l.length + 1)) (l.length + 1) h1 (by omega)
    (by
      intro i i1 i2
      rw [s1, sh.subtree t i (by omega)]
      exact getElem?_getD (by omega))
    (by
      intro i j h1 h2' h3 h4 e
      have e : (F.kids t).getD i 0 = (F.kids t).getD j 0 := e
      have a := kd i (by omega)
      have b := kd j (by omega)
      rw [← e] at b
      exact (sh.unique a b).2)
  rw [e1, Option.map_some]
  have num : ∀ x i, x ≠ c → (h x).parent = some t → (h x).number = some i →
      (h2 x).number = some (if i < l.length then i else i - 1) := by
    intro x i hx hx1 hx2
    have hkx := (sh.place x t i).mpr ⟨hx1, hx2⟩
    have hi : i < (F.kids t).length := (List.getElem?_eq_some_iff.mp hkx).1
    by_cases ci : i < l.length
    · rw [if_pos ci, e5 x, (f1 x).2.2.1, hx2]
      intro j j1 j2 e
      have e : x = (F.kids t).getD j 0 := e
      have b := kd j (by omega)
      rw [← e] at b
      have := (sh.unique hkx b).2
      omega
    · rw [if_neg ci]
      have hne : i ≠ l.length := by
        rintro rfl
        rw [hkc] at hkx
        simp only [Option.some.injEq] at hkx
        exact hx hkx.symm
      have := e4 i (by omega) (by omega)
      have e : (F.kids t).getD i 0 = x := by
        have := kd i hi
        rw [hkx] at this
        simpa using this.symm
      simp only [e] at this
      exact this
  have num' : ∀ x, (h x).parent ≠ some t → (h2 x).number = (h x).number := by
    intro x hx
    rw [e5 x, (f1 x).2.2.1]
    intro j j1 j2 e
    have e : x = (F.kids t).getD j 0 := e
    have b := kd j (by omega)
    rw [← e] at b
    exact hx ((sh.place x t j).mp b).1
  have par : ∀ x, (h2 x).parent = (h x).parent := fun x => (e2.parent x).trans (f1 x).2.1
  generalize hh3 : ((h2.upd t fun x => { x with count := x.count - 1 }).upd c
      fun x => { x with parent := none, number := none }) = h3
  have f3 : ∀ q, (h3 q).count = (if q = t then (F.kids t).length - 1 else (h q).count) ∧
      (h3 q).parent = (if q = c then none else (h q).parent) ∧
      (h3 q).number = (if q = c then none else (h2 q).number) ∧ (h3 q).label = (h q).label ∧
      (h3 q).env = (h2 q).env := by
    intro q
    have b1 : (h2 q).count = (h q).count := (e2.count q).trans (f1 q).1
    have b2 := par q
    have b3 : (h2 q).label = (h q).label := (e2.label q).trans (f1 q).2.2.2
    have b4 := sh.count t
    rw [← hh3]
    by_cases c1 : q = c <;> by_cases c2 : q = t
    · rw [c1, upd_same]
      have : c = t := by rw [← c1]; exact c2
      rw [this, upd_same] 
      subst c2
      subst c1
      simp [b1, b4, b3]
    · rw [c1, upd_same, upd_other _ _ (by rw [← c1]; exact c2)]
      subst c1
      simp [b1, b3, c2]
    · rw [upd_other _ _ c1, c2, upd_same]
      subst c2
      simp [b1, b2, b3, b4, c1]
    · rw [upd_other _ _ c1, upd_other _ _ c2]
      simp [b1, b2, b3, c1, c2]
  have s3 : ∀ q i, h3.subtree q i = h2.subtree q i := by
    intro q i
    unfold Heap.subtree
    rw [(f3 q).2.2.2.2]
  have hn3 : ∀ q, (h3 q).number = (if q = c then none else (h2 q).number) := fun q => (f3 q).2.2.1
  refine ⟨h3, rfl, ?_, ⟨?_, ?_, ?_, ?_, ?_⟩, ?_, ?_, ?_⟩
  · rw [← hh3]
    exact ((t1.keeps e2).upd _ _ (by intro n; rfl)).upd _ _ (by intro n; rfl)
  · intro q
    rw [(f3 q).1]
    simp only [Forest.setKids]
    split
    · rw [hlen]; simp
    · exact sh.count q
  · intro q i
    simp only [Forest.setKids]
    intro hi
    rw [s3, e3, s1]
    by_cases hq : q = t
    · subst hq
      rw [if_pos rfl] at hi ⊢
      simp only [List.length_append] at hi
      rw [getElem?_without l r c i, ← hk]
      by_cases c1 : i < l.length
      · rw [if_neg (by omega), if_pos c1, sh.subtree q i (by omega)]
      · rw [if_pos (by omega), if_neg c1]
        exact (kd (i + 1) (by omega)).symm
    · rw [if_neg hq] at hi ⊢
      rw [if_neg (by tauto)]
      exact sh.subtree q i hi
  · intro x q i
    rw [(f3 x).2.1, hn3]
    simp only [Forest.setKids]
    by_cases hx : x = c
    · rw [if_pos hx, if_pos hx]
      subst hx
      constructor
      · intro hm
        exfalso
        by_cases hq : q = t
        · subst hq
          rw [if_pos rfl, getElem?_without l r x i, ← hk] at hm
          by_cases c1 : i < l.length
          · rw [if_pos c1] at hm
            have := (sh.unique hm hkc).2
            omega
          · rw [if_neg c1] at hm
            have := (sh.unique hm hkc).2
            omega
        · rw [if_neg hq] at hm
          exact hq (sh.unique hm hkc).1
      · rintro ⟨h1, -⟩
        simp at h1
    · rw [if_neg hx, if_neg hx]
      by_cases hq : q = t
      · subst hq
        rw [if_pos rfl, getElem?_without l r c i, ← hk]
        constructor
        · intro hm
          by_cases c1 : i < l.length
          · rw [if_pos c1] at hm
            have := (sh.place x q i).mp hm
            exact ⟨this.1, by rw [num x i hx this.1 this.2, if_pos c1]⟩
          · rw [if_neg c1] at hm
            have := (sh.place x q (i + 1)).mp hm
            refine ⟨this.1, ?_⟩
            rw [num x (i + 1) hx this.1 this.2, if_neg (by omega)]
            rfl
        · rintro ⟨h1, h2'⟩
          cases en : (h x).number with
          | none =>
            have := (sh.root x).mpr en
            rw [h1] at this
            simp at this
          | some j =>
            rw [num x j hx h1 en] at h2'
            have hkx := (sh.place x q j).mpr ⟨h1, en⟩
            simp only [Option.some.injEq] at h2'
            have hne : j ≠ l.length := by
              rintro rfl
              rw [hkc] at hkx
              simp only [Option.some.injEq] at hkx
              exact hx hkx.symm
            by_cases cj : j < l.length
            · rw [if_pos cj] at h2'
              subst h2'
              rw [if_pos cj]; exact hkx
            · rw [if_neg cj] at h2'
              subst h2'
              rw [if_neg (by omega)]
              have : j - 1 + 1 = j := by omega
              rw [this]; exact hkx
      · rw [if_neg hq, sh.place x q i]
        by_cases hpt : (h x).parent = some t
        · rw [hpt]
          simp only [Option.some.injEq]
          constructor
          · rintro ⟨h1, -⟩; exact absurd h1.symm hq
          · rintro ⟨h1, -⟩; exact absurd h1.symm hq
        · rw [num' x hpt]
  · intro x
    rw [(f3 x).2.1, hn3]
    by_cases hx : x = c
    · rw [if_pos hx, if_pos hx]
    · rw [if_neg hx, if_neg hx]
      by_cases hpt : (h x).parent = some t
      · rw [hpt]
        cases en : (h x).number with
        | none =>
          have := (sh.root x).mpr en
          rw [hpt] at this
          simp at this
        | some j =>
          rw [num x j hx hpt en]; simp
      · rw [num' x hpt]; exact sh.root x
  · intro x
    rw [(f3 x).2.2.2.1]
    exact sh.label x
  · rw [(f3 c).2.1, if_pos rfl]
  · rw [hn3, if_pos rfl]
  · intro p hp
    rw [(f3 t).2.2.2.2]
    exact e2.mem t p hp

/-- A subtree is put in the place of another one. -/
theorem put_shows {h : Heap} {F : Forest} (sh : Shows h F) (ht : Tidy h) {p t c : Nat}
    {l r : List Nat} (hk : F.kids p = l ++ t :: r) (hr : F.Root c) :
    ∃ n, (h t).parent = some p ∧ (h t).number = some n ∧
      Tidy (((h.setKid p n c).upd c fun x => { x with parent := some p, number := some n }).upd t
        fun x => { x with parent := none, number := none }) ∧
      Shows (((h.setKid p n c).upd c fun x => { x with parent := some p, number := some n }).upd t
        fun x => { x with parent := none, number := none }) (F.setKids p (l ++ c :: r)) := by
  have hkt : (F.kids p)[l.length]? = some t := by
    rw [hk, List.getElem?_append_right (Nat.le_refl _)]; simp
  have hpl := (sh.place t p l.length).mp hkt
  have hlen : (F.kids p).length = l.length + 1 + r.length := by
    rw [hk]; simp; omega
  have hct : c ≠ t := by
    rintro rfl
    exact hr p (List.mem_of_getElem? hkt)
  have hcp := (sh.root_iff c).mp hr
  have hcn := (sh.root c).mp hcp
  refine ⟨l.length, hpl.1, hpl.2, ?_, ?_⟩
  · exact (((ht.keeps (keeps_setKid _ _ _ _)).upd _ _ (by intro n; rfl)).upd _ _ (by intro n; rfl))
  generalize hh3 : ((h.setKid p l.length c).upd c
      fun x => { x with parent := some p, number := some l.length }).upd t
        (fun x => { x with parent := none, number := none }) = h3
  have f3 : ∀ q, (h3 q).count = (h q).count ∧
      (h3 q).parent = (if q = t then none else if q = c then some p else (h q).parent) ∧
      (h3 q).number = (if q = t then none else if q = c then some l.length else (h q).number) ∧
      (h3 q).label = (h q).label := by
    intro q
    have k := keeps_setKid h p l.length c
    have b1 := k.count q
    have b2 := k.parent q
    have b3 := k.label q
    have b4 := number_setKid h p l.length c q
    rw [← hh3]
    by_cases c1 : q = t
    · subst c1
      rw [upd_same, upd_other _ _ (Ne.symm hct)]
      simp [b1, b3]
    · rw [upd_other _ _ c1]
      by_cases c2 : q = c
      · subst c2
        rw [upd_same]
        simp [b1, b3, c1]
      · rw [upd_other _ _ c2]
        simp [b1, b2, b3, b4, c1, c2]
  have s3 : ∀ q i, h3.subtree q i = if q = p ∧ i = l.length then some c else h.subtree q i := by
    intro q i
    rw [← hh3, subtree_upd _ _ _ (by intro n; rfl), subtree_upd _ _ _ (by intro n; rfl),
      subtree_setKid]
  have kk : ∀ i, (l ++ c :: r)[i]? = if i = l.length then some c else (F.kids p)[i]? := by
    intro i
    rw [hk]
    rcases Nat.lt_trichotomy i l.length with c1 | c1 | c1
    · rw [if_neg (by omega), List.getElem?_append_left c1, List.getElem?_append_left c1]
    · subst c1
      rw [if_pos rfl, List.getElem?_append_right (Nat.le_refl _)]; simp
    · rw [if_neg (by omega), List.getElem?_append_right (by omega),
        List.getElem?_append_right (by omega)]
      obtain ⟨m, hm⟩ : ∃ m, i - l.length = m + 1 := ⟨i - l.length - 1, by omega⟩
      rw [hm, List.getElem?_cons_succ, List.getElem?_cons_succ]
  refine ⟨?_, ?_, ?_, ?_, ?_⟩
  · intro q
    rw [(f3 q).1, sh.count q]
    simp only [Forest.setKids]
    split
    · rename_i e
      rw [e, hlen]; simp; omega
    · rfl
  · intro q i
    simp only [Forest.setKids]
    intro hi
    rw [s3]
    by_cases hq : q = p
    · subst hq
      rw [if_pos rfl] at hi ⊢
      rw [kk]
      have : (l ++ c :: r).length = (F.kids q).length := by rw [hlen]; simp; omega
      rw [this] at hi
      by_cases c1 : i = l.length
      · rw [if_pos ⟨rfl, c1⟩, if_pos c1]
      · rw [if_neg (by tauto), if_neg c1]
        exact sh.subtree q i hi
    · rw [if_neg hq] at hi ⊢
      rw [if_neg (by tauto)]
      exact sh.subtree q i hi
  · intro x q i
    rw [(f3 x).2.1, (f3 x).2.2.1]
    simp only [Forest.setKids]
    by_cases hx : x = t
    · subst hx
      rw [if_pos rfl, if_pos rfl]
      constructor
      · intro hm
        exfalso
        by_cases hq : q = p
        · subst hq
          rw [if_pos rfl, kk] at hm
          by_cases c1 : i = l.length
          · rw [if_pos c1] at hm
            simp only [Option.some.injEq] at hm
            exact hct hm
          · rw [if_neg c1] at hm
            exact c1 (sh.unique hm hkt).2
        · rw [if_neg hq] at hm
          exact hq (sh.unique hm hkt).1
      · rintro ⟨h1, -⟩
        simp at h1
    · rw [if_neg hx, if_neg hx]
      by_cases hxc : x = c
      · subst hxc
        rw [if_pos rfl, if_pos rfl]
        simp only [Option.some.injEq]
        constructor
        · intro hm
          by_cases hq : q = p
          · subst hq
            rw [if_pos rfl, kk] at hm
            by_cases c1 : i = l.length
            · exact ⟨rfl, c1.symm⟩
            · rw [if_neg c1] at hm
              exact absurd (List.mem_of_getElem? hm) (hr q)
          · rw [if_neg hq] at hm
            exact absurd (List.mem_of_getElem? hm) (hr q)
        · rintro ⟨rfl, rfl⟩
          rw [if_pos rfl, kk, if_pos rfl]
      · rw [if_neg hxc, if_neg hxc, ← sh.place x q i]
        by_cases hq : q = p
        · subst hq
          rw [if_pos rfl, kk]
          by_cases c1 : i = l.length
          · subst c1
            rw [if_pos rfl, hkt]
            simp only [Option.some.injEq]
            constructor
            · intro e; exact absurd e.symm hxc
            · intro e; exact absurd e.symm hx
          · rw [if_neg c1]
        · rw [if_neg hq]
  · intro x
    rw [(f3 x).2.1, (f3 x).2.2.1]
    by_cases hx : x = t
    · rw [if_pos hx, if_pos hx]
    · rw [if_neg hx, if_neg hx]
      by_cases hxc : x = c
      · rw [if_pos hxc, if_pos hxc]; simp
      · rw [if_neg hxc, if_neg hxc]; exact sh.root x
  · intro x
    rw [(f3 x).2.2.2]
    exact sh.label x

theorem shows_env {h : Heap} {F : Forest} (sh : Shows h F) (t : Nat) (f : Node → Node)
    (h1 : ∀ n, (f n).count = n.count ∧ (f n).parent = n.parent ∧ (f n).number = n.number ∧
      (f n).label = n.label)
    (h2 : ∀ n i, (f n).env.fetch (.int i) = n.env.fetch (.int i)) : Shows (h.upd t f) F := by
  have e : ∀ q, ((h.upd t f) q).count = (h q).count ∧ ((h.upd t f) q).parent = (h q).parent ∧
      ((h.upd t f) q).number = (h q).number ∧ ((h.upd t f) q).label = (h q).label := by
    intro q
    unfold Heap.upd
    split
    · exact h1 _
    · exact ⟨rfl, rfl, rfl, rfl⟩
  have s : ∀ q i, (h.upd t f).subtree q i = h.subtree q i := by
    intro q i
    unfold Heap.subtree Heap.upd
    by_cases c : q = t
    · simp only [c, if_true, h2]
    · simp [c]
  refine ⟨?_, ?_, ?_, ?_, ?_⟩
  · intro q; rw [(e q).1]; exact sh.count q
  · intro q i hi; rw [s]; exact sh.subtree q i hi
  · intro c q i; rw [(e c).2.1, (e c).2.2.1]; exact sh.place c q i
  · intro c; rw [(e c).2.1, (e c).2.2.1]; exact sh.root c
  · intro c; rw [(e c).2.2.2]; exact sh.label c

theorem tidy_setAttr {h : Heap} (ht : Tidy h) (t a : Nat) (v : Option Z) : Tidy (h.setAttr t a v) := by
  intro q c w hm
  unfold Heap.setAttr Heap.upd at hm
  split at hm
  · exact ht q c w ((mem_change (by simp)).mp hm)
  · exact ht q c w hm

theorem shows_setAttr {h : Heap} {F : Forest} (sh : Shows h F) (t a : Nat) (v : Option Z) :
    Shows (h.setAttr t a v) F :=
  shows_env sh t _ (fun _ => ⟨rfl, rfl, rfl, rfl⟩) (fun n i => by
    simp only
    rw [fetch_change, if_neg (by simp)])

theorem forest_set_eq (F : Forest) (t : Nat) (l : List Nat) (c : Nat) (a : Option Nat) :
    ((F.set t l c none).kids = (F.set t l c a).kids) := rfl

/-- Every call that the forest allows is answered. -/
theorem edit_call {h : Heap} {F G : Forest} {cl : TreeCall} (sh : Shows h F) (ht : Tidy h)
    (e : Edit F cl G) : ∃ h', h.call cl = some h' ∧ Tidy h' ∧ Shows h' G := by
  cases e with
  | @add t c a hr =>
    obtain ⟨h1, e1, t1, s1⟩ := insert_shows sh ht hr (Nat.le_refl (F.kids t).length)
    rw [List.insertIdx_length_self] at s1
    simp only [Heap.call, Heap.addSubtree, sh.count t, e1, Option.map_some]
    refine ⟨_, rfl, t1.upd _ _ (by intro n; rfl), ?_⟩
    have e : ∀ q, ((h1.upd c fun x => { x with label := a }) q).count = (h1 q).count ∧
        ((h1.upd c fun x => { x with label := a }) q).parent = (h1 q).parent ∧
        ((h1.upd c fun x => { x with label := a }) q).number = (h1 q).number ∧
        ((h1.upd c fun x => { x with label := a }) q).label =
          (if q = c then a else (h1 q).label) := by
      intro q
      unfold Heap.upd
      by_cases c1 : q = c <;> simp [c1]
    refine ⟨?_, ?_, ?_, ?_, ?_⟩
    · intro q; rw [(e q).1, s1.count q]; rfl
    · intro q i hi
      rw [subtree_upd _ _ _ (by intro n; rfl)]
      exact s1.subtree q i hi
    · intro c q i; rw [(e c).2.1, (e c).2.2.1]; exact s1.place c q i
    · intro c; rw [(e c).2.1, (e c).2.2.1]; exact s1.root c
    · intro x
      rw [(e x).2.2.2, s1.label x]
      simp only [Forest.set]
      by_cases c1 : x = c <;> simp [c1]
  | @insertLeft t c hr =>
    obtain ⟨h1, e1, t1, s1⟩ := insert_shows sh ht hr (Nat.zero_le (F.kids t).length)
    exact ⟨h1, e1, t1, s1⟩
  | @insertAfter p t c l r hr hk =>
    have hkt : (F.kids p)[l.length]? = some t := by
      rw [hk, List.getElem?_append_right (Nat.le_refl _)]; simp
    have hpl := (sh.place t p l.length).mp hkt
    obtain ⟨h1, e1, t1, s1⟩ := insert_shows sh ht hr (t := p) (n := l.length + 1)
      (by rw [hk]; simp)
    refine ⟨h1, ?_, t1, ?_⟩
    · simp only [Heap.call, Heap.insertBeside, hpl.1, hpl.2, Option.bind_some, if_true]
      exact e1
    · have := insertIdx_length_append (l ++ [t]) r c
      simp only [List.append_assoc, List.singleton_append, List.length_append,
        List.length_singleton] at this
      rw [hk, this] at s1
      exact s1
  | @insertBefore p t c l r hr hk =>
    have hkt : (F.kids p)[l.length]? = some t := by
      rw [hk, List.getElem?_append_right (Nat.le_refl _)]; simp
    have hpl := (sh.place t p l.length).mp hkt
    obtain ⟨h1, e1, t1, s1⟩ := insert_shows sh ht hr (t := p) (n := l.length)
      (by rw [hk]; simp)
    refine ⟨h1, ?_, t1, ?_⟩
    · simp only [Heap.call, Heap.insertBeside, hpl.1, hpl.2, Option.bind_some]
      exact e1
    · rw [hk, insertIdx_length_append] at s1
      exact s1
  | @delete t c l r hk =>
    obtain ⟨h1, e1, t1, s1, -⟩ := delete_shows sh ht hk
    exact ⟨h1, e1, t1, s1⟩
  | @detach p t l r hk =>
    obtain ⟨h1, e1, t1, s1, -⟩ := delete_shows sh ht hk
    have hkt : (F.kids p)[l.length]? = some t := by
      rw [hk, List.getElem?_append_right (Nat.le_refl _)]; simp
    have hpl := (sh.place t p l.length).mp hkt
    refine ⟨h1, ?_, t1, s1⟩
    simp only [Heap.call, Heap.detach, hpl.1]
    exact e1
  | @detachRoot t hr =>
    refine ⟨h, ?_, ht, sh⟩
    simp only [Heap.call, Heap.detach, (sh.root_iff t).mp hr]
  | @replaceWith p t c l r l' r' hne hk hk' =>
    have hkc : (F.kids t)[l.length]? = some c := by
      rw [hk, List.getElem?_append_right (Nat.le_refl _)]; simp
    have hplc := (sh.place c t l.length).mp hkc
    obtain ⟨h1, e1, t1, s1, p1, -⟩ := delete_shows sh ht hk
    have hr1 : (F.setKids t (l ++ r)).Root c := (s1.root_iff c).mpr p1
    obtain ⟨n, a1, a2, a3, a4⟩ := put_shows s1 t1 hk' hr1
    refine ⟨_, ?_, a3, a4⟩
    have hpt : (h t).parent ≠ none := by
      intro hnone
      have hroot := (sh.root_iff t).mpr hnone
      have hmem : t ∈ (F.setKids t (l ++ r)).kids p := by rw [hk']; simp
      simp only [Forest.setKids] at hmem
      split at hmem
      · refine hroot t ?_
        rw [hk]
        simp only [List.mem_append, List.mem_cons] at hmem ⊢
        tauto
      · exact hroot p hmem
    have hnt : (h t).number ≠ none := fun e => hpt ((sh.root t).mpr e)
    simp only [Heap.call, Heap.replaceWith]
    rw [if_neg (by simp [hplc.1, hpt, hnt]), e1, Option.bind_some, a1, Option.bind_some, a2]
    rfl
  | @setAttr t a v =>
    exact ⟨_, rfl, tidy_setAttr ht t a v, shows_setAttr sh t a v⟩
  | @refer t c s =>
    refine ⟨_, rfl, ?_, ?_⟩
    · intro q d w hm
      unfold Heap.refer Heap.upd at hm
      split at hm
      · simp only [Env.insert, List.mem_append, List.mem_singleton, Prod.mk.injEq] at hm
        rcases hm with (hm | hm) | hm
        · exact ht q d w hm
        · exact absurd hm.1 (by simp)
        · exact ⟨s, hm.2⟩
      · exact ht q d w hm
    · refine shows_env sh t _ (fun _ => ⟨rfl, rfl, rfl, rfl⟩) (fun n i => ?_)
      simp only
      rw [fetch_insert_of_ne _ _ _ _ (by simp), fetch_insert_of_ne _ _ _ _ (by simp)]

theorem split_at {L : List Nat} {n t : Nat} (h : L[n]? = some t) : ∃ l r, L = l ++ t :: r :=
  List.append_of_mem (List.mem_of_getElem? h)

/-- Every call that is answered is one that the forest allows. -/
theorem call_edit {h h' : Heap} {F : Forest} {cl : TreeCall} (sh : Shows h F) (ht : Tidy h)
    (e : h.call cl = some h') : ∃ G, Edit F cl G := by
  have ins : ∀ {t c n : Nat} {x : Heap}, h.insertAsNth t c n = some x → F.Root c := by
    intro t c n x e
    unfold Heap.insertAsNth at e
    split at e
    · simp at e
    · rename_i hc
      refine (sh.root_iff c).mpr ?_
      by_contra hh
      exact hc (Or.inl hh)
  have del : ∀ {t c : Nat} {x : Heap}, h.deleteSubtree t c = some x → c ∈ F.kids t := by
    intro t c x e
    unfold Heap.deleteSubtree at e
    split at e
    · simp at e
    · rename_i hc
      have hp : (h c).parent = some t := by
        by_contra hh
        exact hc hh
      cases en : (h c).number with
      | none => rw [en] at e; simp at e
      | some n => exact List.mem_of_getElem? ((sh.place c t n).mpr ⟨hp, en⟩)
  cases cl with
  | add t c a =>
    simp only [Heap.call, Heap.addSubtree, Option.map_eq_some_iff] at e
    obtain ⟨x, e1, -⟩ := e
    exact ⟨_, .add (ins e1)⟩
  | insertLeft t c => exact ⟨_, .insertLeft (ins e)⟩
  | insertBeside t c after =>
    simp only [Heap.call, Heap.insertBeside] at e
    cases ep : (h t).parent with
    | none => rw [ep] at e; simp at e
    | some p =>
      cases en : (h t).number with
      | none => rw [ep, en] at e; simp at e
      | some n =>
        rw [ep, en, Option.bind_some, Option.bind_some] at e
        obtain ⟨l, r, hk⟩ := split_at ((sh.place t p n).mpr ⟨ep, en⟩)
        cases after with
        | true =>
          rw [if_pos rfl] at e
          exact ⟨_, .insertAfter (ins e) hk⟩
        | false =>
          rw [if_neg (by simp)] at e
          exact ⟨_, .insertBefore (ins e) hk⟩
  | delete t c =>
    obtain ⟨l, r, hk⟩ := List.append_of_mem (del e)
    exact ⟨_, .delete hk⟩
  | detach t =>
    simp only [Heap.call, Heap.detach] at e
    cases ep : (h t).parent with
    | none => exact ⟨_, .detachRoot ((sh.root_iff t).mpr ep)⟩
    | some p =>
      rw [ep] at e
      obtain ⟨l, r, hk⟩ := List.append_of_mem (del e)
      exact ⟨_, .detach hk⟩
  | replaceWith t c =>
    simp only [Heap.call, Heap.replaceWith] at e
    split at e
    · simp at e
    · rename_i hc
      cases ed : h.deleteSubtree t c with
      | none => rw [ed] at e; simp at e
      | some h1 =>
        obtain ⟨l, r, hk⟩ := List.append_of_mem (del ed)
        obtain ⟨h1', e1, t1, s1, p1, n1, -⟩ := delete_shows sh ht hk
        rw [ed] at e1
        simp only [Option.some.injEq] at e1
        subst e1
        rw [ed, Option.bind_some] at e
        have hne : c ≠ t := by
          rintro rfl
          rw [p1] at e
          simp at e
        cases ep : (h1 t).parent with
        | none => rw [ep] at e; simp at e
        | some p =>
          cases en : (h1 t).number with
          | none => rw [ep, en] at e; simp at e
          | some n =>
            obtain ⟨l', r', hk'⟩ := split_at ((s1.place t p n).mpr ⟨ep, en⟩)
            exact ⟨_, .replaceWith hne hk hk'⟩
  | setAttr t a v => exact ⟨_, .setAttr⟩
  | refer t c s => exact ⟨_, .refer⟩

theorem edits_calls : ∀ {cs : List TreeCall} {h : Heap} {F G : Forest}, Shows h F → Tidy h →
    Edits F cs G → ∃ h', h.calls cs = some h' ∧ Tidy h' ∧ Shows h' G := by
  intro cs
  induction cs with
  | nil =>
    intro h F G sh ht e
    cases e
    exact ⟨h, rfl, ht, sh⟩
  | cons c cs ih =>
    intro h F G sh ht e
    cases e with
    | cons e1 e2 =>
      obtain ⟨h1, a1, a2, a3⟩ := edit_call sh ht e1
      obtain ⟨h2, b1, b2, b3⟩ := ih a3 a2 e2
      exact ⟨h2, by simp only [Heap.calls, a1, Option.bind_some, b1], b2, b3⟩

theorem calls_edits : ∀ {cs : List TreeCall} {h h' : Heap} {F : Forest}, Shows h F → Tidy h →
    h.calls cs = some h' → ∃ G, Edits F cs G ∧ Shows h' G ∧ Tidy h' := by
  intro cs
  induction cs with
  | nil =>
    intro h h' F sh ht e
    simp only [Heap.calls, Option.some.injEq] at e
    subst e
    exact ⟨F, .nil, sh, ht⟩
  | cons c cs ih =>
    intro h h' F sh ht e
    simp only [Heap.calls] at e
    cases ec : h.call c with
    | none => rw [ec] at e; simp at e
    | some h1 =>
      rw [ec, Option.bind_some] at e
      obtain ⟨G, hG⟩ := call_edit sh ht ec
      obtain ⟨h1', a1, a2, a3⟩ := edit_call sh ht hG
      rw [ec] at a1
      simp only [Option.some.injEq] at a1
      subst a1
      obtain ⟨G', b1, b2, b3⟩ := ih a3 a2 e
      exact ⟨G', .cons hG b1, b2, b3⟩

theorem shows_new : Shows Heap.new Forest.new := by
  refine ⟨?_, ?_, ?_, ?_, ?_⟩ <;> simp [Heap.new, Forest.new]

theorem tidy_new : Tidy Heap.new := by
  intro t c v hm
  simp [Heap.new] at hm

end Verif.Zval
