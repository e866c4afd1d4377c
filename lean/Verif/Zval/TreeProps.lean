import Verif.Zval.TreeSort
import Verif.Server.Handler

/-! # Properties of syntactic trees -/

namespace Verif.Zval

/-- **C145.** The functions that change trees do what they are for, for every sequence of
calls from new trees on: a sequence of calls is answered exactly if every tree that is
inserted is no subtree yet and every tree beside which something is inserted, that is
deleted or replaced is a subtree, and afterwards the subtrees are those that one expects,
in their order; each knows its tree and its place, and the label is the one that was
given. -/
theorem C145_trees (cs : List TreeCall) :
    (∀ h, Heap.new.calls cs = some h → ∃ F, Edits Forest.new cs F ∧ Shows h F) ∧
    (∀ F, Edits Forest.new cs F → ∃ h, Heap.new.calls cs = some h ∧ Shows h F) := by
  constructor
  · intro h e
    obtain ⟨G, h1, h2, -⟩ := calls_edits shows_new tidy_new e
    exact ⟨G, h1, h2⟩
  · intro F e
    obtain ⟨h, h1, -, h2⟩ := edits_calls shows_new tidy_new e
    exact ⟨h, h1, h2⟩

/-- A tree 0 with the subtrees 3, 1, 2, of which 1 is replaced by its subtree 4. -/
example : ∃ h, Heap.new.calls [.add 0 1 none, .add 0 2 (some 7), .insertBeside 1 3 false, .add 1 4 none,
      .replaceWith 1 4] = some h ∧
    (h 0).count = 3 ∧ h.subtree 0 0 = some 3 ∧ h.subtree 0 1 = some 4 ∧ h.subtree 0 2 = some 2 ∧
    (h 4).number = some 1 ∧ (h 1).parent = none ∧ (h 2).label = some 7 := by
  refine ⟨_, rfl, ?_⟩
  decide

/-! ## No tree is inside itself -/

theorem transGen_add {R : Nat → Nat → Prop} {s p : Nat} {a b : Nat}
    (h : Relation.TransGen (fun x y => R x y ∨ (x = s ∧ y = p)) a b) :
    Relation.TransGen R a b ∨ (Relation.ReflTransGen R a s ∧ Relation.ReflTransGen R p b) := by
  induction h with
  | single h =>
    rcases h with h | ⟨rfl, rfl⟩
    · exact Or.inl (.single h)
    · exact Or.inr ⟨.refl, .refl⟩
  | tail _ h ih =>
    rcases h with h | ⟨rfl, rfl⟩
    · rcases ih with ih | ⟨i1, i2⟩
      · exact Or.inl (ih.tail h)
      · exact Or.inr ⟨i1, i2.tail h⟩
    · rcases ih with ih | ⟨i1, i2⟩
      · exact Or.inr ⟨ih.to_reflTransGen, .refl⟩
      · exact Or.inr ⟨i1, .refl⟩

theorem acyclic_add {F G : Forest} {s p : Nat} (ha : F.Acyclic)
    (hG : ∀ x y, G.Child x y → F.Child x y ∨ (x = s ∧ y = p)) (hn : ¬ F.Within p s) : G.Acyclic := by
  intro t ht
  rcases transGen_add (Relation.TransGen.mono hG _ _ ht) with h | ⟨h1, h2⟩
  · exact ha t h
  · exact hn (h2.trans h1)

theorem acyclic_sub {F G : Forest} (ha : F.Acyclic) (hG : ∀ x y, G.Child x y → F.Child x y) :
    G.Acyclic := fun t ht => ha t (Relation.TransGen.mono hG _ _ ht)

/-- **C146** is false of the code: a tree can be put into itself, as only its having a parent is
checked (`common/zvalue.cpp`, 735-739); after that it is its own parent. -/
theorem C146_false : ∃ h, Heap.new.calls [.add 0 0 none] = some h ∧
    (h 0).parent = some 0 ∧ h.subtree 0 0 = some 0 := by
  refine ⟨_, rfl, ?_⟩
  decide

theorem acyclic_edit {F G : Forest} {c : TreeCall} (ha : F.Acyclic) (hs : Sensible F c)
    (e : Edit F c G) : G.Acyclic := by
  cases e with
  | @add t c a hr =>
    refine acyclic_add (s := c) (p := t) ha ?_ hs
    intro x y hxy
    simp only [Forest.Child, Forest.set] at hxy ⊢
    split at hxy
    · rename_i e
      subst e
      simp only [List.mem_append, List.mem_singleton] at hxy
      tauto
    · exact Or.inl hxy
  | @insertLeft t c hr =>
    refine acyclic_add (s := c) (p := t) ha ?_ hs
    intro x y hxy
    simp only [Forest.Child, Forest.set] at hxy ⊢
    split at hxy
    · rename_i e
      subst e
      simp only [List.mem_cons] at hxy
      tauto
    · exact Or.inl hxy
  | @insertAfter p t c l r hr hk =>
    refine acyclic_add (s := c) (p := p) ha ?_ (hs p (by rw [hk]; simp))
    intro x y hxy
    simp only [Forest.Child, Forest.set] at hxy ⊢
    split at hxy
    · rename_i e
      subst e
      rw [hk]
      simp only [List.mem_append, List.mem_cons] at hxy ⊢
      tauto
    · exact Or.inl hxy
  | @insertBefore p t c l r hr hk =>
    refine acyclic_add (s := c) (p := p) ha ?_ (hs p (by rw [hk]; simp))
    intro x y hxy
    simp only [Forest.Child, Forest.set] at hxy ⊢
    split at hxy
    · rename_i e
      subst e
      rw [hk]
      simp only [List.mem_append, List.mem_cons] at hxy ⊢
      tauto
    · exact Or.inl hxy
  | @delete t c l r hk =>
    refine acyclic_sub ha ?_
    intro x y hxy
    simp only [Forest.Child, Forest.setKids] at hxy ⊢
    split at hxy
    · rename_i e
      subst e
      rw [hk]
      simp only [List.mem_append, List.mem_cons] at hxy ⊢
      tauto
    · exact hxy
  | @detach p t l r hk =>
    refine acyclic_sub ha ?_
    intro x y hxy
    simp only [Forest.Child, Forest.setKids] at hxy ⊢
    split at hxy
    · rename_i e
      subst e
      rw [hk]
      simp only [List.mem_append, List.mem_cons] at hxy ⊢
      tauto
    · exact hxy
  | @detachRoot t hr => exact ha
  | @replaceWith p t c l r l' r' hne hk hk' =>
    have sub : ∀ x y, (F.setKids t (l ++ r)).Child x y → F.Child x y := by
      intro x y hxy
      simp only [Forest.Child, Forest.setKids] at hxy ⊢
      split at hxy
      · rename_i e
        subst e
        rw [hk]
        simp only [List.mem_append, List.mem_cons] at hxy ⊢
        tauto
      · exact hxy
    have htp : F.Child t p := by
      refine sub t p ?_
      show t ∈ (F.setKids t (l ++ r)).kids p
      rw [hk']
      simp
    have hct : F.Child c t := by
      show c ∈ F.kids t
      rw [hk]
      simp
    refine acyclic_add (s := c) (p := p) ha ?_ ?_
    · intro x y hxy
      have hxy : x ∈ ((F.setKids t (l ++ r)).setKids p (l' ++ c :: r')).kids y := hxy
      by_cases e : y = p
      · subst e
        rw [setKids_kids] at hxy
        simp only [List.mem_append, List.mem_cons] at hxy
        rcases hxy with h | h | h
        · left
          refine sub x y ?_
          show x ∈ (F.setKids t (l ++ r)).kids y
          rw [hk']
          simp [h]
        · exact Or.inr ⟨h, rfl⟩
        · left
          refine sub x y ?_
          show x ∈ (F.setKids t (l ++ r)).kids y
          rw [hk']
          simp [h]
      · left
        refine sub x y ?_
        show x ∈ (F.setKids t (l ++ r)).kids y
        have : ((F.setKids t (l ++ r)).setKids p (l' ++ c :: r')).kids y =
            (F.setKids t (l ++ r)).kids y := by
          show (if y = p then _ else _) = _
          rw [if_neg e]
        rw [this] at hxy
        exact hxy
    · intro hw
      have h1 : Relation.TransGen F.Child c p := (Relation.TransGen.single hct).tail htp
      exact ha c (Relation.TransGen.trans_left h1 hw)
  | setAttr => exact ha
  | refer => exact ha

theorem new_acyclic : Forest.new.Acyclic := by
  intro t ht
  have : ∀ a b, Relation.TransGen Forest.new.Child a b → False := by
    intro a b h
    induction h with
    | single h => simp [Forest.Child, Forest.new] at h
    | tail _ h _ => simp [Forest.Child, Forest.new] at h
  exact this t t ht

/-- Every call in the sequence is sensible when it is made. -/
inductive SensibleRun : Forest → List TreeCall → Forest → Prop
  | nil {F} : SensibleRun F [] F
  | cons {F G H c cs} : Sensible F c → Edit F c G → SensibleRun G cs H → SensibleRun F (c :: cs) H

/-- **C146**, the part that is true: if no call puts a tree into itself or into a tree inside
it, then no tree is ever inside itself.  Missing is that such calls are refused. -/
theorem C146_partial {cs : List TreeCall} {F : Forest} (e : SensibleRun Forest.new cs F) :
    F.Acyclic ∧ ∃ h, Heap.new.calls cs = some h ∧ Shows h F := by
  have run : ∀ {A B : Forest} {cs : List TreeCall}, SensibleRun A cs B → A.Acyclic →
      B.Acyclic ∧ Edits A cs B := by
    intro A B cs r
    induction r with
    | nil => intro ha; exact ⟨ha, .nil⟩
    | cons hs he _ ih =>
      intro ha
      obtain ⟨i1, i2⟩ := ih (acyclic_edit ha hs he)
      exact ⟨i1, .cons he i2⟩
  obtain ⟨r1, r2⟩ := run e new_acyclic
  exact ⟨r1, (C145_trees cs).2 F r2⟩

/-- The hypotheses of C146 are met: a new tree is put into another one. -/
example : Forest.new.Acyclic ∧ Sensible Forest.new (.add 0 1 none) ∧
    Edit Forest.new (.add 0 1 none) (Forest.new.set 0 [1] 1 none) := by
  refine ⟨new_acyclic, ?_, ?_⟩
  · intro hw
    cases hw with
    | tail _ h => simp [Forest.Child, Forest.new] at h
  · exact Edit.add (F := Forest.new) (t := 0) (c := 1) (a := none) (by intro t; simp [Forest.new])

/-! ## References to a deleted subtree -/

/-- **C147** is false of the code: if a subtree has two references, one of them stays in the tree
when the subtree is deleted (`common/zvalue.cpp`, 711-714; the comment there knows it); and if the
subtree was the last one, `getSubtree` still finds it under its old number. -/
theorem C147_false :
    (∃ h, Heap.new.calls [.add 0 1 none, .refer 0 1 5, .refer 0 1 6, .delete 0 1] = some h ∧
      (h 0).env.fetch (.sym 6) = some (.tree 1) ∧ (h 1).parent = none) ∧
    (∃ h, Heap.new.calls [.add 0 1 none, .delete 0 1] = some h ∧
      (h 0).count = 0 ∧ h.subtree 0 0 = some 1 ∧ (h 1).parent = none) := by
  constructor
  · refine ⟨_, rfl, ?_⟩
    decide
  · refine ⟨_, rfl, ?_⟩
    decide

/-- **C147**, the part that is true: if the subtree has one reference, nothing in the tree
mentions it any more after it has been deleted, but for the old number behind the last
one; references of other subtrees and attributes stay.  Missing are subtrees with several
references, and the old number. -/
theorem C147_partial {h : Heap} {F : Forest} (sh : Shows h F) (ht : Tidy h) {t c : Nat}
    (hc : c ∈ F.kids t)
    (hone : ∀ s s', ((Z.sym s, some (.tree c)) : Z × Option Z) ∈ (h t).env →
      (Z.tree c, some (.sym s')) ∈ (h t).env → s = s')
    (hboth : ∀ s, ((Z.sym s, some (.tree c)) : Z × Option Z) ∈ (h t).env →
      ∃ s', (Z.tree c, some (Z.sym s')) ∈ (h t).env)
    (huniq : ∀ s s', ((Z.tree c, some (.sym s)) : Z × Option Z) ∈ (h t).env →
      (Z.tree c, some (.sym s')) ∈ (h t).env → s = s') :
    ∃ h', h.deleteSubtree t c = some h' ∧ (h' c).parent = none ∧
      (∀ s, ((Z.sym s, some (.tree c)) : Z × Option Z) ∉ (h' t).env) ∧
      (∀ v, ((Z.tree c, v) : Z × Option Z) ∉ (h' t).env) ∧
      (∀ i, i < (h' t).count → h'.subtree t i ≠ some c) ∧
      (∀ p, (∀ i, p.1 ≠ Z.int i) → p.1 ≠ .tree c → p.2 ≠ some (.tree c) →
        (p ∈ (h' t).env ↔ p ∈ (h t).env)) := by
  obtain ⟨l, r, hk⟩ := List.append_of_mem hc
  obtain ⟨h', e1, t1, s1, p1, n1, m1⟩ := delete_shows sh ht hk
  have drop : ∀ p, p ∈ ((h.dropRefs t c) t).env ↔ p ∈ (h t).env ∧
      ¬ (p.1 = .tree c ∧ p.2 = (h t).env.fetch (.tree c)) ∧
      ∀ k, (h t).env.fetch (.tree c) = some k → ¬ (p.1 = k ∧ p.2 = some (.tree c)) := by
    intro p
    unfold Heap.dropRefs
    rw [upd_same]
    cases e : (h t).env.fetch (.tree c) with
    | none =>
      simp only [Env.deleteAllKeyValue, List.mem_filter, Bool.not_eq_true', Bool.and_eq_false_iff,
        decide_eq_false_iff_not]
      constructor
      · rintro ⟨a1, a2⟩
        exact ⟨a1, by tauto, by simp⟩
      · rintro ⟨a1, a2, -⟩
        exact ⟨a1, by tauto⟩
    | some k =>
      simp only [Env.deleteAllKeyValue, List.mem_filter, Bool.not_eq_true', Bool.and_eq_false_iff,
        decide_eq_false_iff_not, Option.some.injEq]
      constructor
      · rintro ⟨⟨a1, a2⟩, a3⟩
        refine ⟨a1, by tauto, ?_⟩
        rintro k' rfl
        tauto
      · rintro ⟨a1, a2, a3⟩
        have := a3 k rfl
        exact ⟨⟨a1, by tauto⟩, by tauto⟩
  have treeEnv : ∀ v, ((Z.tree c, v) : Z × Option Z) ∈ (h t).env →
      (h t).env.fetch (.tree c) = v := by
    intro v hv
    obtain ⟨s, rfl⟩ := ht t c v hv
    cases e : (h t).env.find? (fun p => decide (p.1 = .tree c)) with
    | none =>
      have := List.find?_eq_none.mp e _ hv
      simp at this
    | some p =>
      have hp1 := List.find?_some e
      have hp2 := List.mem_of_find?_eq_some e
      simp only [decide_eq_true_eq] at hp1
      obtain ⟨k, w⟩ := p
      simp only at hp1
      subst hp1
      obtain ⟨s', rfl⟩ := ht t c w hp2
      unfold Env.fetch
      rw [e, huniq s s' hv hp2]
      rfl
  refine ⟨h', e1, p1, ?_, ?_, ?_, ?_⟩
  · intro s hm
    have hm := (drop _).mp ((m1 _ (by simp)).mp hm)
    obtain ⟨s', hs'⟩ := hboth s hm.1
    have := hone s s' hm.1 hs'
    subst this
    exact hm.2.2 (.sym s) (treeEnv _ hs') ⟨rfl, rfl⟩
  · intro v hm
    have hm := (drop _).mp ((m1 _ (by simp)).mp hm)
    exact hm.2.1 ⟨rfl, (treeEnv _ hm.1).symm⟩
  · intro i hi he
    rw [s1.count t] at hi
    rw [s1.subtree t i hi] at he
    have := ((s1.place c t i).mp he).1
    rw [p1] at this
    simp at this
  · intro p hp hp1 hp2
    rw [m1 p hp, drop]
    constructor
    · intro a; exact a.1
    · intro a
      exact ⟨a, by tauto, by intros; tauto⟩

/-- A tree with a subtree that has one reference meets the hypotheses of C147. -/
example : ∃ h, Heap.new.calls [.add 0 1 none, .refer 0 1 5] = some h ∧
    (∀ s s', ((Z.sym s, some (.tree 1)) : Z × Option Z) ∈ (h 0).env →
      (Z.tree 1, some (.sym s')) ∈ (h 0).env → s = s') ∧
    (∀ s, ((Z.sym s, some (.tree 1)) : Z × Option Z) ∈ (h 0).env →
      ∃ s', (Z.tree 1, some (Z.sym s')) ∈ (h 0).env) ∧
    (∀ s s', ((Z.tree 1, some (.sym s)) : Z × Option Z) ∈ (h 0).env →
      (Z.tree 1, some (.sym s')) ∈ (h 0).env → s = s') := by
  have e : ((Option.get (Heap.new.calls [.add 0 1 none, .refer 0 1 5]) (by decide)) 0).env =
      [(.int 0, some (.tree 1)), (.sym 5, some (.tree 1)), (.tree 1, some (.sym 5))] := by decide
  refine ⟨Option.get (Heap.new.calls [.add 0 1 none, .refer 0 1 5]) (by decide), by simp, ?_⟩
  rw [e]
  simp

example : ∃ h, Heap.new.calls [.add 0 1 none, .refer 0 1 5, .delete 0 1] = some h ∧
    (h 0).env.fetch (.sym 5) = none ∧ (h 0).env.fetch (.tree 1) = none := by
  refine ⟨_, rfl, ?_⟩
  decide

/-! ## Finding a subtree -/

theorem fits_iff (h : Heap) (cat label : Option Nat) (c : Nat) :
    h.fits cat label c = true ↔ Fits h cat label c := by
  unfold Heap.fits Fits
  cases cat with
  | none =>
    cases label with
    | none => simp
    | some b => by_cases e : (h c).label = some b <;> simp [e, eq_comm]
  | some a =>
    by_cases e1 : (h c).category = some a
    · cases label with
      | none => simp [e1]
      | some b => by_cases e : (h c).label = some b <;> simp [e, e1, eq_comm]
    · simp [e1, eq_comm]

theorem findLeft_eq {h : Heap} {t : Nat} {cat label : Option Nat} :
    ∀ (l : List Nat) (i : Nat), (∀ j, j < l.length → h.subtree t (i + j) = l[j]?) →
      h.findLeft t cat label i l.length = some (l.find? (h.fits cat label)) := by
  intro l
  induction l with
  | nil => intro i _; rfl
  | cons c l ih =>
    intro i hs
    have h0 := hs 0 (by simp)
    simp only [Nat.add_zero, List.getElem?_cons_zero] at h0
    have ih' := ih (i + 1) (fun j hj => by
      have := hs (j + 1) (by simpa using hj)
      rw [List.getElem?_cons_succ] at this
      rw [← this]; congr 1; omega)
    simp only [List.length_cons, Heap.findLeft, h0, Option.bind_some]
    by_cases e : h.fits cat label c = true
    · rw [if_pos e, List.find?_cons_of_pos e]
    · rw [if_neg e, List.find?_cons_of_neg e, ih']

theorem findRight_eq {h : Heap} {t : Nat} {cat label : Option Nat} :
    ∀ (l : List Nat), (∀ j, j < l.length → h.subtree t j = l.reverse[j]?) →
      h.findRight t cat label l.length = some (l.find? (h.fits cat label)) := by
  intro l
  induction l with
  | nil => intro _; rfl
  | cons c l ih =>
    intro hs
    have h0 := hs l.length (by simp)
    rw [List.reverse_cons, List.getElem?_append_right (by simp)] at h0
    simp only [List.length_reverse, Nat.sub_self, List.getElem?_cons_zero] at h0
    have ih' := ih (fun j hj => by
      have := hs j (by simp; omega)
      rw [List.reverse_cons, List.getElem?_append_left (by simpa using hj)] at this
      exact this)
    simp only [List.length_cons, Heap.findRight, h0, Option.bind_some]
    by_cases e : h.fits cat label c = true
    · rw [if_pos e, List.find?_cons_of_pos e]
    · rw [if_neg e, List.find?_cons_of_neg e, ih']

/-- **C148.** `find` gives the first subtree, from the left or from the right, that has the
category and the label that are asked for, and `NULL` exactly if no subtree has them. -/
theorem C148_find {h : Heap} {F : Forest} (sh : Shows h F) (t : Nat) (cat label : Option Nat)
    (fromLeft : Bool) :
    ∃ r, h.find t cat label fromLeft = some r ∧
      (r = none ↔ ∀ c ∈ F.kids t, ¬ Fits h cat label c) ∧
      (∀ c, r = some c → Fits h cat label c ∧ ∃ a b, F.kids t = a ++ c :: b ∧
        ∀ e ∈ (if fromLeft then a else b), ¬ Fits h cat label e) := by
  have hfun : ∀ c, (h.fits cat label c = false) ↔ ¬ Fits h cat label c := by
    intro c
    rw [← fits_iff]
    simp
  have hr : h.find t cat label fromLeft =
      some ((if fromLeft then F.kids t else (F.kids t).reverse).find? (h.fits cat label)) := by
    have hl := findLeft_eq (h := h) (t := t) (cat := cat) (label := label) (F.kids t) 0 (by
      intro j hj
      rw [Nat.zero_add]
      exact sh.subtree t j hj)
    have hrr := findRight_eq (h := h) (t := t) (cat := cat) (label := label) (F.kids t).reverse (by
      intro j hj
      rw [List.reverse_reverse]
      exact sh.subtree t j (by simpa using hj))
    rw [List.length_reverse] at hrr
    unfold Heap.find
    rw [sh.count t]
    by_cases h0 : (F.kids t).length = 0
    · rw [if_pos h0]
      have := List.length_eq_zero_iff.mp h0
      rw [this]
      cases fromLeft <;> rfl
    · rw [if_neg h0]
      have hne : F.kids t ≠ [] := fun e => h0 (by rw [e]; rfl)
      have triv : cat = none ∧ label = none → ∀ c, h.fits cat label c = true := by
        rintro ⟨rfl, rfl⟩ c
        rfl
      cases fromLeft with
      | true =>
        rw [if_pos rfl, if_pos rfl]
        by_cases hcl : cat = none ∧ label = none
        · rw [if_pos hcl]
          obtain ⟨x, l, e⟩ := List.exists_cons_of_ne_nil hne
          rw [sh.subtree t 0 (by omega), e, List.find?_cons_of_pos (triv hcl x)]
          rfl
        · rw [if_neg hcl]; exact hl
      | false =>
        simp only [Bool.false_eq_true, if_false]
        by_cases hcl : cat = none ∧ label = none
        · rw [if_pos hcl]
          obtain ⟨l, x, e⟩ : ∃ l x, F.kids t = l ++ [x] :=
            ⟨_, _, (List.dropLast_append_getLast hne).symm⟩
          rw [sh.subtree t _ (by omega), e, List.reverse_append, List.reverse_singleton,
            List.singleton_append, List.find?_cons_of_pos (triv hcl x)]
          simp
        · rw [if_neg hcl]; exact hrr
  refine ⟨_, hr, ?_, ?_⟩
  · rw [List.find?_eq_none]
    constructor
    · intro hx c hc
      have := hx c (by cases fromLeft <;> simpa using hc)
      rwa [fits_iff] at this
    · intro hx c hc
      rw [fits_iff]
      exact hx c (by cases fromLeft <;> simpa using hc)
  · intro c hc
    obtain ⟨h1, a, b, h2, h3⟩ := List.find?_eq_some_iff_append.mp hc
    refine ⟨(fits_iff h cat label c).mp h1, ?_⟩
    cases fromLeft with
    | true =>
      refine ⟨a, b, h2, ?_⟩
      intro e he
      have := h3 e he
      rw [← hfun]; simpa using this
    | false =>
      rw [if_neg (by simp)] at h2
      refine ⟨b.reverse, a.reverse, ?_, ?_⟩
      · have := congrArg List.reverse h2
        rw [List.reverse_reverse] at this
        rw [this]
        simp
      · intro e he
        rw [if_neg (by simp), List.mem_reverse] at he
        have := h3 e he
        rw [← hfun]; simpa using this

example : ∃ h, Heap.new.calls [.add 0 1 (some 7), .add 0 2 none, .add 0 3 (some 7)] = some h ∧
    h.find 0 none (some 7) true = some (some 1) ∧ h.find 0 none (some 7) false = some (some 3) ∧
    h.find 0 (some 9) none true = some none := by
  refine ⟨_, rfl, ?_⟩
  decide

/-! ## Inheriting an attribute -/

/-- What the loop sets: the value of the first main subtree that has the attribute, or of the
last subtree that has it. -/
def inherited (hash : Nat) (h : Heap) (a : Nat) : List Nat → Option (Option Z)
  | [] => none
  | c :: l =>
    if (h c).env.defined (.sym a) then
      if (h c).label = some hash then some ((h c).env.fetch (.sym a))
      else ((inherited hash h a l).or (some ((h c).env.fetch (.sym a))))
    else inherited hash h a l

theorem setAttr_twice (h : Heap) (t a : Nat) (v w : Option Z) :
    ((h.setAttr t a v).setAttr t a w) = h.setAttr t a w := by
  unfold Heap.setAttr Heap.upd
  funext q
  by_cases e : q = t
  · simp only [e, if_true, Node.mk.injEq, and_true]
    generalize (h t).env = env
    induction env with
    | nil => simp [Env.change]
    | cons p env ih =>
      by_cases c : p.1 = .sym a
      · simp [c, Env.change]
      · simp only [Env.change, if_neg c, ih]
  · simp [e]

theorem setAttr_other (h : Heap) {t q : Nat} (a : Nat) (v : Option Z) (hq : q ≠ t) :
    (h.setAttr t a v) q = h q := upd_other _ _ hq

theorem setAttr_subtree (h : Heap) (t a : Nat) (v : Option Z) (q i : Nat) :
    (h.setAttr t a v).subtree q i = h.subtree q i := by
  unfold Heap.setAttr Heap.subtree Heap.upd
  by_cases e : q = t
  · simp only [e, if_true]
    rw [fetch_change, if_neg (by simp)]
  · simp [e]

theorem inheritLoop_eq {hash t a : Nat} (h0 : Heap) :
    ∀ (l : List Nat) (i : Nat) (h : Heap) (cur : Option (Option Z)),
      h = cur.elim h0 (fun v => h0.setAttr t a v) →
      (∀ j, j < l.length → h0.subtree t (i + j) = l[j]?) → t ∉ l →
      Heap.inheritLoop hash t a h cur.isSome i l.length =
        some (((inherited hash h0 a l).or cur).isSome,
          ((inherited hash h0 a l).or cur).elim h0 (fun v => h0.setAttr t a v)) := by
  intro l
  induction l with
  | nil =>
    intro i h cur hh _ _
    simp only [List.length_nil, Heap.inheritLoop, inherited, Option.none_or]
    rw [hh]
  | cons c l ih =>
    intro i h cur hh hs hn
    have hs0 := hs 0 (by simp)
    simp only [Nat.add_zero, List.getElem?_cons_zero] at hs0
    have hsub : h.subtree t i = some c := by
      rw [hh]
      cases cur with
      | none => exact hs0
      | some v => simp only [Option.elim]; rw [setAttr_subtree]; exact hs0
    have hct : c ≠ t := fun e => hn (by rw [e]; exact List.mem_cons_self ..)
    have hc : h c = h0 c := by
      rw [hh]
      cases cur with
      | none => rfl
      | some v => exact setAttr_other _ _ _ hct
    have hs' : ∀ j, j < l.length → h0.subtree t (i + 1 + j) = l[j]? := by
      intro j hj
      have := hs (j + 1) (by simpa using hj)
      rw [List.getElem?_cons_succ] at this
      rw [← this]; congr 1; omega
    have hn' : t ∉ l := fun e => hn (List.mem_cons_of_mem _ e)
    simp only [List.length_cons, Heap.inheritLoop, hsub, Option.bind_some, hc]
    have hset : h.setAttr t a ((h0 c).env.fetch (.sym a)) =
        h0.setAttr t a ((h0 c).env.fetch (.sym a)) := by
      rw [hh]
      cases cur with
      | none => rfl
      | some v => exact setAttr_twice _ _ _ _ _
    unfold inherited
    by_cases c1 : (h0 c).env.defined (.sym a) = true
    · rw [if_pos c1, if_pos c1, hset, setAttr_other _ _ _ hct]
      by_cases c2 : (h0 c).label = some hash
      · rw [if_pos c2, if_pos c2]
        rfl
      · rw [if_neg c2, if_neg c2]
        have := ih (i + 1) (h0.setAttr t a ((h0 c).env.fetch (.sym a)))
          (some ((h0 c).env.fetch (.sym a))) rfl hs' hn'
        rw [Option.isSome_some] at this
        rw [this]
        cases inherited hash h0 a l <;> rfl
    · rw [if_neg c1, if_neg c1]
      exact ih (i + 1) h cur hh hs' hn'

/-- **C149.** `inherit` does what its description says (`common/zvalue.hpp`, 1016-1024).  The tree
gets the attribute of its first main subtree that has it; if there is none, that of the
last subtree that has it; if there is none, the given value, unless that is the default
value, in which case nothing is changed. -/
theorem C149_inherit (hash : Nat) {h : Heap} {F : Forest} (sh : Shows h F) (t a : Nat)
    (hn : t ∉ F.kids t) (value : Option (Option Z)) :
    ∃ h', h.inherit hash t a value = some h' ∧
      (∀ l c r, F.kids t = l ++ c :: r → (h c).label = some hash → (h c).env.defined (.sym a) = true →
        (∀ e ∈ l, (h e).label = some hash → (h e).env.defined (.sym a) = false) →
        h' = h.setAttr t a ((h c).env.fetch (.sym a))) ∧
      (∀ l c r, F.kids t = l ++ c :: r → (h c).env.defined (.sym a) = true →
        (∀ e ∈ r, (h e).env.defined (.sym a) = false) →
        (∀ e ∈ F.kids t, (h e).label = some hash → (h e).env.defined (.sym a) = false) →
        h' = h.setAttr t a ((h c).env.fetch (.sym a))) ∧
      ((∀ e ∈ F.kids t, (h e).env.defined (.sym a) = false) →
        (∀ v, value = some v → h' = h.setAttr t a v) ∧ (value = none → h' = h)) := by
  have key := inheritLoop_eq (hash := hash) (t := t) (a := a) h (F.kids t) 0 h none rfl (by
    intro j hj
    rw [Nat.zero_add]
    exact sh.subtree t j hj) hn
  rw [Option.or_none, Option.isSome_none] at key
  have res : h.inherit hash t a value =
      some ((inherited hash h a (F.kids t)).elim (value.elim h (fun v => h.setAttr t a v))
        (fun v => h.setAttr t a v)) := by
    unfold Heap.inherit
    rw [sh.count t, key, Option.map_some]
    cases inherited hash h a (F.kids t) with
    | none => cases value <;> rfl
    | some v => rfl
  have main : ∀ (l r : List Nat) (c : Nat), (h c).label = some hash →
      (h c).env.defined (.sym a) = true →
      (∀ e ∈ l, (h e).label = some hash → (h e).env.defined (.sym a) = false) →
      inherited hash h a (l ++ c :: r) = some ((h c).env.fetch (.sym a)) := by
    intro l r c h1 h2 h3
    induction l with
    | nil => simp [inherited, h1, h2]
    | cons e l ih =>
      have ih' := ih (fun x hx => h3 x (List.mem_cons_of_mem _ hx))
      simp only [List.cons_append, inherited, ih']
      by_cases c1 : (h e).env.defined (.sym a) = true
      · have : (h e).label ≠ some hash := by
          intro hl
          rw [h3 e (List.mem_cons_self ..) hl] at c1
          simp at c1
        rw [if_pos c1, if_neg this]
        rfl
      · rw [if_neg c1]
  have none' : ∀ l : List Nat, (∀ e ∈ l, (h e).env.defined (.sym a) = false) →
      inherited hash h a l = none := by
    intro l h1
    induction l with
    | nil => rfl
    | cons e l ih =>
      simp only [inherited]
      rw [if_neg (by rw [h1 e (List.mem_cons_self ..)]; simp)]
      exact ih (fun x hx => h1 x (List.mem_cons_of_mem _ hx))
  have last : ∀ (l r : List Nat) (c : Nat), (h c).env.defined (.sym a) = true →
      (∀ e ∈ r, (h e).env.defined (.sym a) = false) →
      (∀ e ∈ l ++ c :: r, (h e).label = some hash → (h e).env.defined (.sym a) = false) →
      inherited hash h a (l ++ c :: r) = some ((h c).env.fetch (.sym a)) := by
    intro l r c h1 h2 h3
    induction l with
    | nil =>
      have : (h c).label ≠ some hash := by
        intro hl
        rw [h3 c (by simp) hl] at h1
        simp at h1
      simp only [List.nil_append, inherited, none' r h2]
      rw [if_pos h1, if_neg this]
      rfl
    | cons e l ih =>
      have ih' := ih (fun x hx => h3 x (List.mem_cons_of_mem _ hx))
      simp only [List.cons_append, inherited, ih']
      by_cases c1 : (h e).env.defined (.sym a) = true
      · have : (h e).label ≠ some hash := by
          intro hl
          rw [h3 e (by simp) hl] at c1
          simp at c1
        rw [if_pos c1, if_neg this]
        rfl
      · rw [if_neg c1]
  refine ⟨_, res, ?_, ?_, ?_⟩
  · intro l c r hk h1 h2 h3
    rw [hk, main l r c h1 h2 h3]
    rfl
  · intro l c r hk h1 h2 h3
    rw [hk] at h3
    rw [hk, last l r c h1 h2 h3]
    rfl
  · intro h1
    rw [none' _ h1]
    constructor
    · rintro v rfl
      rfl
    · rintro rfl
      rfl

/-- A main subtree (with the label 9) and another one, both with the attribute 5. -/
example : ∃ h h', Heap.new.calls [.add 0 1 (some 9), .add 0 2 none, .setAttr 1 5 (some (.int 3)),
      .setAttr 2 5 (some (.int 4))] = some h ∧
    h.inherit 9 0 5 none = some h' ∧ (h' 0).env.fetch (.sym 5) = some (.int 3) := by
  refine ⟨_, _, rfl, rfl, ?_⟩
  decide

/-! ## Sorting the subtrees -/

theorem refs_once {order : List Item} (hnd : order.Pairwise fun a b => a = b → a = .less ∨ a = .equal)
    {l r : List Item} {a : Z} (e : order = l ++ .ref a :: r) : Item.ref a ∉ l ∧ Item.ref a ∉ r := by
  rw [e, List.pairwise_append, List.pairwise_cons] at hnd
  obtain ⟨-, ⟨h1, -⟩, h2⟩ := hnd
  constructor
  · intro hm
    have := h2 _ hm _ (List.mem_cons_self ..) rfl
    simp at this
  · intro hm
    have := h1 _ hm rfl
    simp at this

/-- **C150.** Sorting by an order that names no reference twice gives the same subtrees, and each
knows its new place.  A subtree comes before another one if the order has its reference
before the other one with `<` between.  Two subtrees between which the order makes no
difference, and two that it does not name, keep their order. -/
theorem C150_sort {h : Heap} {F : Forest} (sh : Shows h F) (t : Nat) (order : List Item)
    (hnd : order.Pairwise fun a b => a = b → a = .less ∨ a = .equal) :
    ∃ h' L, h.sortByOrder (orderRanks 0 order) t = some h' ∧ Shows h' (F.setKids t L) ∧
      L.Perm (F.kids t) ∧
      (∀ c d a b, c ∈ L → d ∈ L → refOf h t c = some a → refOf h t d = some b → Below order a b →
        Before L c d) ∧
      (∀ c d a b, refOf h t c = some a → refOf h t d = some b → Level order a b →
        Before (F.kids t) c d → Before L c d) ∧
      (∀ c d, ¬ Named h order t c → ¬ Named h order t d → Before (F.kids t) c d → Before L c d) := by
  obtain ⟨h', e1, -, e2⟩ := sort_shows sh (orderRanks 0 order) t
  generalize hrank : kidRank h (orderRanks 0 order) t = rank at e2
  have perm := sortKids_perm rank (F.kids t)
  obtain ⟨ord, stable⟩ := sortKids_ordered rank (F.kids t)
  have rk : ∀ c a, refOf h t c = some a → rank c = rankOf (orderRanks 0 order) a := by
    intro c a hc
    rw [← hrank]
    unfold kidRank
    rw [hc]
    rfl
  have keep : ∀ c d, rank c = rank d → Before (F.kids t) c d →
      Before (sortKids rank (F.kids t)) c d := by
    intro c d hcd hb
    have h1 : [c, d].Sublist ((F.kids t).filter fun e => rank e = rank c) := by
      have := hb.filter (fun e => decide (rank e = rank c))
      simpa [List.filter_cons, hcd] using this
    rw [← stable (rank c)] at h1
    exact h1.trans List.filter_sublist
  refine ⟨h', _, e1, e2, perm, ?_, ?_, ?_⟩
  · intro c d a b hc hd ha hb hbel
    obtain ⟨l, m, r, hord, hless⟩ := hbel
    have ra : rank c = some (0 + l.count .less) := by
      rw [rk c a ha, hord]
      exact rank_at a l _ 0 (refs_once hnd hord).1
    have hord2 : order = (l ++ .ref a :: m) ++ .ref b :: r := by rw [hord]; simp
    have rb : rank d = some (0 + (l ++ .ref a :: m).count .less) := by
      rw [rk d b hb, hord2]
      exact rank_at b _ _ 0 (refs_once hnd hord2).1
    have hlt : l.count .less < (l ++ .ref a :: m).count .less := by
      rw [List.count_append, List.count_cons_of_ne (by simp)]
      have := List.count_pos_iff.mpr hless
      omega
    have hne : c ≠ d := by
      rintro rfl
      rw [ra] at rb
      simp only [Option.some.injEq] at rb
      omega
    obtain ⟨u, v, huv⟩ := List.append_of_mem hc
    rw [huv] at hd
    rw [List.mem_append, List.mem_cons] at hd
    unfold Before
    rcases hd with hd | hd | hd
    · exfalso
      unfold Ordered at ord
      rw [huv] at ord
      have := (List.pairwise_append.mp ord).2.2 d hd c (List.mem_cons_self ..) _ _ rb ra
      omega
    · exact absurd hd.symm hne
    · rw [huv]
      exact ((List.singleton_sublist.mpr hd).cons₂ c).trans (List.sublist_append_right u (c :: v))
  · intro c d a b ha hb hlev hbef
    refine keep c d ?_ hbef
    obtain ⟨l, m, r, hord, hless⟩ := hlev
    have hm : m.count .less = 0 := List.count_eq_zero_of_not_mem hless
    rcases hord with hord | hord
    · have hord2 : order = (l ++ .ref a :: m) ++ .ref b :: r := by rw [hord]; simp
      have ra : rank c = some (0 + l.count .less) := by
        rw [rk c a ha, hord]
        exact rank_at a l _ 0 (refs_once hnd hord).1
      have rb : rank d = some (0 + (l ++ .ref a :: m).count .less) := by
        rw [rk d b hb, hord2]
        exact rank_at b _ _ 0 (refs_once hnd hord2).1
      rw [ra, rb, List.count_append, List.count_cons_of_ne (by simp), hm]
      rfl
    · have hord2 : order = (l ++ .ref b :: m) ++ .ref a :: r := by rw [hord]; simp
      have rb : rank d = some (0 + l.count .less) := by
        rw [rk d b hb, hord]
        exact rank_at b l _ 0 (refs_once hnd hord).1
      have ra : rank c = some (0 + (l ++ .ref b :: m).count .less) := by
        rw [rk c a ha, hord2]
        exact rank_at a _ _ 0 (refs_once hnd hord2).1
      rw [ra, rb, List.count_append, List.count_cons_of_ne (by simp), hm]
      rfl
  · intro c d hc hd hbef
    have unnamed : ∀ x, ¬ Named h order t x → rank x = none := by
      intro x hx
      cases e : refOf h t x with
      | none =>
        rw [← hrank]
        unfold kidRank
        rw [e]
        rfl
      | some a =>
        rw [rk x a e]
        exact rank_none a order 0 (fun hm => hx ⟨a, e, hm⟩)
    exact keep c d (by rw [unnamed c hc, unnamed d hd]) hbef

/-- Three subtrees, of which the order `%B < %A` turns two around. -/
example : ∃ h h', Heap.new.calls [.add 0 1 none, .add 0 2 none, .add 0 3 none, .refer 0 1 10,
      .refer 0 3 11] = some h ∧
    h.sortByOrder (orderRanks 0 [.ref (.sym 11), .less, .ref (.sym 10)]) 0 = some h' ∧
    h'.subtree 0 0 = some 2 ∧ h'.subtree 0 1 = some 3 ∧ h'.subtree 0 2 = some 1 ∧
    (h' 1).number = some 2 := by
  refine ⟨_, _, rfl, rfl, ?_⟩
  decide

/-! ## Equivalent trees -/

/-- The heap after `t` has left its equivalent. -/
def freed (h : Heap) (t : Nat) : Heap :=
  match (h t).equiv with
  | none => h
  | some v => h.upd v fun x => { x with equiv := none }

/-- **C151.** Being equivalent stays mutual.  After `setEquivTree` the two trees are equivalent to
each other, the trees to which they were equivalent before have no equivalent, and all
others are as before. -/
theorem C151_equivalents {h : Heap} (hm : Equivalents h) {t u : Nat} (hne : u ≠ t) :
    ∃ h', h.setEquiv t u = some h' ∧ Equivalents h' ∧
      (h' t).equiv = some u ∧ (h' u).equiv = some t ∧
      (∀ x, x ≠ t → x ≠ u → (h' x).equiv =
        if (h x).equiv = some t ∨ (h x).equiv = some u then none else (h x).equiv) := by
  have sym : ∀ x y, (h x).equiv = some y ↔ (h y).equiv = some x := by
    intro x y
    exact ⟨fun e => (hm x y e).1, fun e => (hm y x e).1⟩
  have irr : ∀ x, (h x).equiv ≠ some x := fun x e => (hm x x e).2 rfl
  have eu : ∀ (g : Heap) (x y : Nat) (o : Option Nat),
      ((g.upd x fun n => { n with equiv := o }) y).equiv = if y = x then o else (g y).equiv := by
    intro g x y o
    unfold Heap.upd
    by_cases e : y = x <;> simp [e]
  -- the heap after the old equivalent of `t` was cleared
  have h1 : ∃ g : Heap, freed h t = g ∧
      ∀ y, (g y).equiv = if (h y).equiv = some t then none else (h y).equiv := by
    refine ⟨_, rfl, ?_⟩
    intro y
    unfold freed
    cases e : (h t).equiv with
    | none =>
      simp only
      rw [if_neg]
      intro hy
      rw [sym] at hy
      rw [e] at hy
      simp at hy
    | some v =>
      simp only
      rw [eu]
      by_cases c : y = v
      · rw [if_pos c, if_pos]
        rw [sym, c]
        exact e
      · rw [if_neg c, if_neg]
        intro hy
        rw [sym, e] at hy
        simp only [Option.some.injEq] at hy
        exact c hy.symm
  obtain ⟨g1, hg1, g1e⟩ := h1
  have unf : h.setEquiv t u =
      (let g2 := (freed h t).upd t fun x => { x with equiv := some u }
       let g3 := if (g2 u).equiv ≠ none then g2.clearEquiv u else g2
       if (g3 u).equiv ≠ none then none
       else some (g3.upd u fun x => { x with equiv := some t })) := by
    unfold Heap.setEquiv
    rw [if_neg hne]
    rfl
  simp only [hg1] at unf
  rw [unf]
  have g2e : ∀ y, ((g1.upd t fun x => { x with equiv := some u }) y).equiv =
      if y = t then some u else (g1 y).equiv := fun y => eu g1 t y (some u)
  generalize hg2 : (g1.upd t fun x => { x with equiv := some u }) = g2 at g2e ⊢
  -- the heap after the old equivalent of `u` was cleared
  have g3e : ∀ y, ((if (g2 u).equiv ≠ none then g2.clearEquiv u else g2) y).equiv =
      if y = u then none
      else if y = t then some u
      else if (h y).equiv = some t ∨ (h y).equiv = some u then none else (h y).equiv := by
    have hu : (g2 u).equiv = if (h u).equiv = some t then none else (h u).equiv := by
      rw [g2e, if_neg hne, g1e]
    intro y
    by_cases c : (g2 u).equiv = none
    · rw [if_neg (by simp [c]), g2e]
      by_cases c1 : y = u
      · rw [if_pos c1, if_neg (by rw [c1]; exact hne), c1, ← c, hu, g1e]
      · rw [if_neg c1]
        by_cases c2 : y = t
        · rw [if_pos c2, if_pos c2]
        · rw [if_neg c2, if_neg c2, g1e]
          by_cases c3 : (h y).equiv = some t
          · rw [if_pos c3, if_pos (Or.inl c3)]
          · rw [if_neg c3]
            have c4 : (h y).equiv ≠ some u := by
              intro hy
              have := (sym y u).mp hy
              rw [hu, this, if_neg] at c
              · simp at c
              · intro e
                simp only [Option.some.injEq] at e
                exact c2 e
            rw [if_neg (by tauto)]
    · rw [if_pos c]
      have hut : (h u).equiv ≠ some t := by
        intro e
        rw [hu, if_pos e] at c
        exact c rfl
      rw [if_neg hut] at hu
      unfold Heap.clearEquiv
      rw [eu]
      by_cases c1 : y = u
      · rw [if_pos c1, if_pos c1]
      · rw [if_neg c1, if_neg c1]
        cases e : (h u).equiv with
        | none => rw [hu, e] at c; exact absurd rfl c
        | some w =>
          rw [hu, e]
          simp only
          rw [eu, g2e, g1e]
          have hwu := (sym u w).mp e
          have hwt : w ≠ t := by
            rintro rfl
            exact hut e
          by_cases c2 : y = t
          · rw [if_neg (by rw [c2]; exact Ne.symm hwt), if_pos c2, if_pos c2]
          · rw [if_neg c2, if_neg c2]
            by_cases c3 : y = w
            · rw [if_pos c3, if_pos (Or.inr (by rw [c3]; exact hwu))]
            · rw [if_neg c3]
              by_cases c4 : (h y).equiv = some t
              · rw [if_pos c4, if_pos (Or.inl c4)]
              · rw [if_neg c4, if_neg]
                rintro (h5 | h5)
                · exact c4 h5
                · rw [sym, e] at h5
                  simp only [Option.some.injEq] at h5
                  exact c3 h5.symm
  generalize (if (g2 u).equiv ≠ none then g2.clearEquiv u else g2) = g3 at g3e
  rw [if_neg (by rw [g3e u, if_pos rfl]; simp)]
  have fe : ∀ y, ((g3.upd u fun x => { x with equiv := some t }) y).equiv =
      if y = u then some t
      else if y = t then some u
      else if (h y).equiv = some t ∨ (h y).equiv = some u then none else (h y).equiv := by
    intro y
    rw [eu, g3e]
    by_cases c1 : y = u
    · rw [if_pos c1, if_pos c1]
    · rw [if_neg c1, if_neg c1, if_neg c1]
  refine ⟨_, rfl, ?_, ?_, ?_, ?_⟩
  · intro x y hxy
    rw [fe] at hxy
    rw [fe]
    by_cases c1 : x = u
    · rw [if_pos c1] at hxy
      simp only [Option.some.injEq] at hxy
      subst hxy
      rw [if_neg (Ne.symm hne), if_pos rfl, c1]
      exact ⟨rfl, hne⟩
    · rw [if_neg c1] at hxy
      by_cases c2 : x = t
      · rw [if_pos c2] at hxy
        simp only [Option.some.injEq] at hxy
        subst hxy
        rw [if_pos rfl, c2]
        exact ⟨rfl, Ne.symm hne⟩
      · rw [if_neg c2] at hxy
        by_cases c3 : (h x).equiv = some t ∨ (h x).equiv = some u
        · rw [if_pos c3] at hxy
          simp at hxy
        · rw [if_neg c3] at hxy
          have hyx := (sym x y).mp hxy
          have y1 : y ≠ u := by
            rintro rfl
            exact c3 (Or.inr hxy)
          have y2 : y ≠ t := by
            rintro rfl
            exact c3 (Or.inl hxy)
          rw [if_neg y1, if_neg y2, if_neg]
          · exact ⟨hyx, (hm x y hxy).2⟩
          · rw [hyx]
            simp only [Option.some.injEq]
            rintro (h5 | h5)
            · exact c2 h5
            · exact c1 h5
  · rw [fe, if_neg (Ne.symm hne), if_pos rfl]
  · rw [fe, if_pos rfl]
  · intro x hx1 hx2
    rw [fe, if_neg hx2, if_neg hx1]

/-- Two pairs of equivalent trees, of which two trees become equivalent. -/
example : ∃ h1 h2 h3, Heap.new.setEquiv 0 1 = some h1 ∧ h1.setEquiv 2 3 = some h2 ∧
    h2.setEquiv 0 3 = some h3 ∧ (h3 0).equiv = some 3 ∧ (h3 3).equiv = some 0 ∧
    (h3 1).equiv = none ∧ (h3 2).equiv = none := by
  refine ⟨_, _, _, rfl, rfl, rfl, ?_⟩
  decide

example : Equivalents Heap.new := by
  intro t u h
  simp [Heap.new] at h

/-- A tree cannot be made equivalent to itself. -/
theorem C151_self (h : Heap) (t : Nat) : h.setEquiv t t = none := by simp [Heap.setEquiv]

end Verif.Zval
