import Verif.Bracket.Spec

/-!
Helper lemmas for Props.lean: patterns.
-/
set_option linter.unusedSimpArgs false
set_option linter.unusedVariables false
namespace Verif.Bracket
open Verif

variable {D : Type} [DecidableEq D]

theorem joined_go (sep : Str) (l : List Str) (s : Str) (h : s ≠ []) :
    l.foldl (fun s a => (if s = [] then s else s ++ sep) ++ a) s = s ++ l.flatMap (fun v => sep ++ v) := by
  induction l generalizing s with
  | nil => simp
  | cons a l ih =>
    rw [List.foldl_cons, if_neg h, ih _ (by simp [h])]
    simp

theorem joined_eq (sep : Str) (l : List Str) : joined sep l = sepBy sep l := by
  induction l with
  | nil => rfl
  | cons a l ih =>
    by_cases h : a = []
    · subst h
      simp only [sepBy, if_true]
      rw [← ih]; rfl
    · simp only [sepBy, h, if_false]
      unfold joined
      rw [List.foldl_cons, if_pos rfl, List.nil_append, joined_go sep l a h]

theorem lookup_eq (k : Str) (m : List (Str × Str)) : lookup k m = valueOf k m := by
  induction m with
  | nil => rfl
  | cons p m ih =>
    obtain ⟨a, v⟩ := p
    unfold lookup at ih ⊢
    rw [List.find?_cons, valueOf]
    by_cases h : a = k
    · simp [h]
    · simp only [h, decide_false, if_false]
      exact ih

theorem valueOf_insert (k a v : Str) (m : List (Str × Str)) : valueOf k (insert a v m) = if a = k then v else valueOf k m := by
  induction m with
  | nil => simp [insert, valueOf]
  | cons p m ih =>
    obtain ⟨b, w⟩ := p
    rw [insert]
    simp only
    split
    · rename_i h
      subst h
      rw [valueOf, valueOf]
      split <;> rfl
    · rename_i h
      split
      · rw [valueOf]
      · rw [valueOf, ih, valueOf]
        by_cases hb : b = k
        · subst hb
          rw [if_pos rfl, if_neg (fun e => h e.symm), if_pos rfl]
        · rw [if_neg hb, if_neg hb]

theorem below_irrefl (a : Str) : below a a = false := by
  induction a with
  | nil => rfl
  | cons b a ih => simp [below, ih, UInt8.lt_irrefl]

theorem below_asymm {a b : Str} (h : below a b = true) : below b a = false := by
  induction a generalizing b with
  | nil => cases b <;> rfl
  | cons x a ih =>
    cases b with
    | nil => cases h
    | cons y b =>
      simp only [below, Bool.or_eq_true, decide_eq_true_eq, Bool.and_eq_true] at h
      simp only [below, Bool.or_eq_false_iff, decide_eq_false_iff_not, Bool.and_eq_false_iff]
      rcases h with h | ⟨h1, h2⟩
      · exact ⟨UInt8.lt_asymm h, Or.inl (fun e => UInt8.lt_irrefl _ (e ▸ h))⟩
      · subst h1
        exact ⟨UInt8.lt_irrefl _, Or.inr (ih h2)⟩

theorem insert_same {m : List (Str × Str)} (hm : InOrder m) {a : Str} (ha : a ∈ m.map Prod.fst) : insert a (valueOf a m) m = m := by
  induction m with
  | nil => simp at ha
  | cons p m ih =>
    obtain ⟨b, w⟩ := p
    rw [InOrder, List.pairwise_cons] at hm
    rw [insert]
    simp only
    split
    · rename_i h
      subst h
      rw [valueOf, if_pos rfl]
    · rename_i h
      have hmem : a ∈ m.map Prod.fst := by
        simp only [List.map_cons, List.mem_cons] at ha
        exact ha.resolve_left (fun e => h e.symm)
      obtain ⟨q, hq, hqa⟩ := List.mem_map.1 hmem
      have := below_asymm (hm.1 q hq)
      rw [hqa] at this
      rw [this, valueOf, if_neg h, ih hm.2 hmem]
      simp

theorem mem_insert {k v a w : Str} {m : List (Str × Str)} (h : (k, v) ∈ insert a w m) : (k, v) = (a, w) ∨ (k, v) ∈ m := by
  induction m with
  | nil =>
    simp only [insert, List.mem_singleton] at h
    exact Or.inl h
  | cons p m ih =>
    rw [insert] at h
    split at h
    · rw [List.mem_cons] at h
      exact h.imp id (fun h => List.mem_cons_of_mem _ h)
    · split at h
      · rw [List.mem_cons] at h
        exact h
      · rw [List.mem_cons] at h
        rcases h with h | h
        · exact Or.inr (h ▸ List.mem_cons_self)
        · exact (ih h).imp id (fun h => List.mem_cons_of_mem _ h)

theorem keys_insert (k a w : Str) (m : List (Str × Str)) : k ∈ (insert a w m).map Prod.fst ↔ k = a ∨ k ∈ m.map Prod.fst := by
  induction m with
  | nil => simp [insert]
  | cons p m ih =>
    rw [insert]
    split
    · rename_i h
      simp only [List.map_cons, List.mem_cons, h]
      constructor
      · rintro (h | h)
        · exact Or.inl h
        · exact Or.inr (Or.inr h)
      · rintro (h | h | h)
        · exact Or.inl h
        · exact Or.inl h
        · exact Or.inr h
    · split
      · simp only [List.map_cons, List.mem_cons]
      · simp only [List.map_cons, List.mem_cons, ih]
        constructor
        · rintro (h | h | h)
          · exact Or.inr (Or.inl h)
          · exact Or.inl h
          · exact Or.inr (Or.inr h)
        · rintro (h | h | h)
          · exact Or.inr (Or.inl h)
          · exact Or.inl h
          · exact Or.inr (Or.inr h)

theorem valueOf_mem {m : List (Str × Str)} (hm : InOrder m) {k v : Str} (h : (k, v) ∈ m) : v = valueOf k m := by
  induction m with
  | nil => cases h
  | cons p m ih =>
    obtain ⟨b, w⟩ := p
    rw [InOrder, List.pairwise_cons] at hm
    rw [List.mem_cons] at h
    rw [valueOf]
    rcases h with h | h
    · injection h with h1 h2
      rw [if_pos h1.symm, h2]
    · have := hm.1 (k, v) h
      simp only at this
      split
      · rename_i e
        rw [e, below_irrefl] at this
        cases this
      · exact ih hm.2 h

/-! ### One part -/

theorem getD_pre (pre q : Str) (k : Nat) : (pre ++ q).getD (pre.length + k) 0 = q.getD k 0 := by
  rw [List.getD_eq_getElem?_getD, List.getD_eq_getElem?_getD, List.getElem?_append_right (by omega)]
  congr 2; omega

theorem drop_pre (pre q : Str) (k : Nat) : (pre ++ q).drop (pre.length + k) = q.drop k := by
  rw [List.drop_append]
  simp

theorem idxOf?_first {c : Byte} (name rest : Str) (h : c ∉ name) : (name ++ c :: rest).idxOf? c = some name.length := by
  induction name with
  | nil => simp [List.idxOf?_cons]
  | cons b name ih =>
    simp only [List.mem_cons, not_or] at h
    rw [List.cons_append, List.idxOf?_cons, ih h.2]
    have : (b == c) = false := by simpa using (fun e : b = c => h.1 e.symm)
    rw [this]
    simp

theorem find_pre (pre q : Str) (k : Nat) (c : Byte) (name rest : Str) (hq : q.drop k = name ++ c :: rest) (h : c ∉ name) :
    find (pre ++ q) c (pre.length + k) = some (pre.length + k + name.length) := by
  unfold find
  rw [drop_pre, hq, idxOf?_first name rest h, Option.map_some]
  congr 1; omega

/-- The state after a part. -/
def after (st : Style D) (d : Edge D) (s : St D) : Item → St D
  | .lit b => { s with out := s.out ++ [b] }
  | .tags => { s with out := s.out ++ joined st.tagSep d.tags, used := { s.used with tags := d.tags } }
  | .cat => { s with out := s.out ++ d.category, used := { s.used with category := d.category } }
  | .text => { s with out := s.out ++ d.text, used := { s.used with text := d.text } }
  | .attr _ a =>
    let v := lookup a s.av
    { s with out := s.out ++ v, av := insert a v s.av, used := { s.used with av := insert a v s.used.av } }
  | .all =>
    let t := joined st.avPairsSep (s.av.map (fun q => q.1 ++ st.avSep ++ q.2))
    { s with out := s.out ++ t, used := { s.used with av := s.av } }
  | .score => { s with out := s.out ++ st.show_ d.score, used := { s.used with score := d.score } }
  | .role => { s with out := s.out ++ d.role, used := { s.used with role := d.role } }
  | .star _ sep sub => { s with out := s.out ++ [37, 42, 42, 42, 42, 42], sep := sep, sub := sub }

theorem partner_eq (b : Byte) : partner b = close b := by
  have h : ∀ n : Fin 256, partner (UInt8.ofNat n.val) = close (UInt8.ofNat n.val) := by decide +kernel
  have := h ⟨b.toNat, b.toNat_lt⟩
  rwa [UInt8.ofNat_toNat] at this

theorem step_item (st : Style D) (d : Edge D) (pre rest : Str) (s : St D) (it : Item) (hf : it.Fits) :
    step st d (pre ++ (it.unparse ++ rest)) s pre.length = (after st d s it, pre.length + it.unparse.length) := by
  have g := getD_pre pre (it.unparse ++ rest)
  have g0 := g 0
  rw [Nat.add_zero] at g0
  have hl : ∀ k, (pre.length + k < (pre ++ (it.unparse ++ rest)).length) ↔ k < it.unparse.length + rest.length := by
    intro k; simp only [List.length_append]; omega
  cases it with
  | lit b =>
    have hb : b ≠ 37 := hf
    have g0' : (pre ++ (Item.unparse (.lit b) ++ rest)).getD pre.length 0 = b := g0
    unfold step
    rw [g0', if_neg (fun h => hb h.1)]
    rfl
  | attr br name =>
    have hn : close br ∉ name := partner_eq br ▸ hf
    have g0' : (pre ++ (Item.unparse (.attr br name) ++ rest)).getD pre.length 0 = 37 := g0
    have g1 : (pre ++ (Item.unparse (.attr br name) ++ rest)).getD (pre.length + 1) 0 = 97 := g 1
    have g2 : (pre ++ (Item.unparse (.attr br name) ++ rest)).getD (pre.length + 2) 0 = br := g 2
    have hd : (Item.unparse (.attr br name) ++ rest).drop 3 = name ++ close br :: rest := by
      simp [Item.unparse, partner_eq]
    have hfd := find_pre pre _ 3 (close br) name rest hd hn
    have hdrop := drop_pre pre (Item.unparse (.attr br name) ++ rest) 3
    unfold step
    rw [g0', g1, g2, if_pos ⟨rfl, by rw [hl]; simp only [Item.unparse, List.length_append, List.length_cons, List.length_nil]; omega⟩]
    simp only [show (97 : Byte) ≠ 84 by decide, show (97 : Byte) ≠ 99 by decide, show (97 : Byte) ≠ 116 by decide, if_false, if_true]
    rw [if_pos (by rw [hl]; simp [Item.unparse]; omega), hfd]
    simp only
    rw [hdrop, hd]
    have e : pre.length + 3 + name.length - (pre.length + 3) = name.length := by omega
    rw [e, List.take_left]
    refine Prod.ext rfl ?_
    simp [Item.unparse]; omega
  | star br sep sub =>
    obtain ⟨hs1, hs2⟩ : close br ∉ sep ∧ close br ∉ sub := partner_eq br ▸ hf
    have g0' : (pre ++ (Item.unparse (.star br sep sub) ++ rest)).getD pre.length 0 = 37 := g0
    have g1 : (pre ++ (Item.unparse (.star br sep sub) ++ rest)).getD (pre.length + 1) 0 = 42 := g 1
    have g2 : (pre ++ (Item.unparse (.star br sep sub) ++ rest)).getD (pre.length + 2) 0 = br := g 2
    have hd : (Item.unparse (.star br sep sub) ++ rest).drop 3 = sep ++ close br :: (br :: sub ++ close br :: rest) := by
      simp [Item.unparse, partner_eq]
    have hfd := find_pre pre _ 3 (close br) sep _ hd hs1
    have hdrop := drop_pre pre (Item.unparse (.star br sep sub) ++ rest) 3
    have hd5 : (Item.unparse (.star br sep sub) ++ rest).drop (3 + sep.length + 2) = sub ++ close br :: rest := by
      rw [Nat.add_assoc, ← List.drop_drop, hd, ← List.drop_drop, List.drop_left]
      simp
    have hfd2 := find_pre pre _ (3 + sep.length + 2) (close br) sub rest hd5 hs2
    have hdrop2 := drop_pre pre (Item.unparse (.star br sep sub) ++ rest) (3 + sep.length + 2)
    have g4 : (pre ++ (Item.unparse (.star br sep sub) ++ rest)).getD (pre.length + 3 + sep.length + 1) 0 = br := by
      have := g (3 + sep.length + 1)
      rw [show pre.length + 3 + sep.length + 1 = pre.length + (3 + sep.length + 1) by omega, this]
      have hx : (Item.unparse (.star br sep sub) ++ rest).drop (3 + sep.length + 1) = br :: (sub ++ close br :: rest) := by
        rw [Nat.add_assoc, ← List.drop_drop, hd, ← List.drop_drop, List.drop_left]
        simp
      have h0 : ((Item.unparse (.star br sep sub) ++ rest).drop (3 + sep.length + 1)).head? = some br := by rw [hx]; rfl
      rw [List.head?_drop] at h0
      rw [List.getD_eq_getElem?_getD, h0]; rfl
    unfold step
    rw [g0', g1, g2, if_pos ⟨rfl, by rw [hl]; simp only [Item.unparse, List.length_append, List.length_cons, List.length_nil]; omega⟩]
    simp only [show (42 : Byte) ≠ 84 by decide, show (42 : Byte) ≠ 99 by decide, show (42 : Byte) ≠ 116 by decide,
      show (42 : Byte) ≠ 97 by decide, show (42 : Byte) ≠ 65 by decide, show (42 : Byte) ≠ 115 by decide, if_false, if_true]
    rw [if_pos (by rw [hl]; simp [Item.unparse]; omega), hfd]
    simp only
    rw [g4, if_pos rfl]
    rw [show pre.length + 3 + sep.length + 2 = pre.length + (3 + sep.length + 2) by omega, hfd2]
    simp only
    rw [hdrop, hd, hdrop2, hd5]
    rw [show pre.length + 3 + sep.length - (pre.length + 3) = sep.length by omega, List.take_left,
      show pre.length + (3 + sep.length + 2) + sub.length - (pre.length + (3 + sep.length + 2)) = sub.length by omega, List.take_left]
    refine Prod.ext rfl ?_
    simp [Item.unparse]; omega
  | tags =>
    have g0' : (pre ++ (Item.unparse .tags ++ rest)).getD pre.length 0 = 37 := g0
    have g1 : (pre ++ (Item.unparse .tags ++ rest)).getD (pre.length + 1) 0 = 84 := g 1
    unfold step
    rw [g0', g1, if_pos ⟨rfl, by rw [hl]; simp only [Item.unparse, List.length_append, List.length_cons, List.length_nil]; omega⟩]
    rfl
  | cat =>
    have g0' : (pre ++ (Item.unparse .cat ++ rest)).getD pre.length 0 = 37 := g0
    have g1 : (pre ++ (Item.unparse .cat ++ rest)).getD (pre.length + 1) 0 = 99 := g 1
    unfold step
    rw [g0', g1, if_pos ⟨rfl, by rw [hl]; simp only [Item.unparse, List.length_append, List.length_cons, List.length_nil]; omega⟩]
    rfl
  | text =>
    have g0' : (pre ++ (Item.unparse .text ++ rest)).getD pre.length 0 = 37 := g0
    have g1 : (pre ++ (Item.unparse .text ++ rest)).getD (pre.length + 1) 0 = 116 := g 1
    unfold step
    rw [g0', g1, if_pos ⟨rfl, by rw [hl]; simp only [Item.unparse, List.length_append, List.length_cons, List.length_nil]; omega⟩]
    rfl
  | all =>
    have g0' : (pre ++ (Item.unparse .all ++ rest)).getD pre.length 0 = 37 := g0
    have g1 : (pre ++ (Item.unparse .all ++ rest)).getD (pre.length + 1) 0 = 65 := g 1
    unfold step
    rw [g0', g1, if_pos ⟨rfl, by rw [hl]; simp only [Item.unparse, List.length_append, List.length_cons, List.length_nil]; omega⟩]
    rfl
  | score =>
    have g0' : (pre ++ (Item.unparse .score ++ rest)).getD pre.length 0 = 37 := g0
    have g1 : (pre ++ (Item.unparse .score ++ rest)).getD (pre.length + 1) 0 = 115 := g 1
    unfold step
    rw [g0', g1, if_pos ⟨rfl, by rw [hl]; simp only [Item.unparse, List.length_append, List.length_cons, List.length_nil]; omega⟩]
    rfl
  | role =>
    have g0' : (pre ++ (Item.unparse .role ++ rest)).getD pre.length 0 = 37 := g0
    have g1 : (pre ++ (Item.unparse .role ++ rest)).getD (pre.length + 1) 0 = 114 := g 1
    unfold step
    rw [g0', g1, if_pos ⟨rfl, by rw [hl]; simp only [Item.unparse, List.length_append, List.length_cons, List.length_nil]; omega⟩]
    rfl

theorem unparse_pos (it : Item) : 0 < it.unparse.length := by
  cases it <;> simp [Item.unparse]

theorem expand_items (st : Style D) (d : Edge D) (items : List Item) (hf : ∀ it ∈ items, it.Fits) (pre : Str) (s : St D) (f : Nat)
    (hfuel : (unparse items).length < f) :
    expand st d (pre ++ unparse items) f s pre.length = some (items.foldl (after st d) s) := by
  induction items generalizing pre s f with
  | nil =>
    cases f with
    | zero => simp at hfuel
    | succ f =>
      rw [expand, if_neg (by simp [unparse])]
      rfl
  | cons it items ih =>
    have e : unparse (it :: items) = it.unparse ++ unparse items := rfl
    have hp := unparse_pos it
    rw [e] at hfuel ⊢
    rw [List.length_append] at hfuel
    cases f with
    | zero => omega
    | succ f =>
      rw [expand, if_pos (by simp only [List.length_append]; omega), step_item st d pre (unparse items) s it (hf it (by simp))]
      simp only
      have := ih (fun i h => hf i (List.mem_cons_of_mem _ h)) (pre ++ it.unparse) (after st d s it) f (by omega)
      rw [List.append_assoc, List.length_append] at this
      rw [this, List.foldl_cons]

/-! ### What is known after some parts -/

/-- Is the attribute named? -/
def named (k : Str) (items : List Item) : Prop := ∃ br, Item.attr br k ∈ items

structure Inv (st : Style D) (d : Edge D) (s0 : St D) (items : List Item) (s : St D) : Prop where
  value : ∀ k, valueOf k s.av = valueOf k d.av
  avMem : ∀ k v, (k, v) ∈ s.av → v = valueOf k d.av
  avKeys : ∀ k, k ∈ s.av.map Prod.fst ↔ k ∈ d.av.map Prod.fst ∨ named k items
  avSame : (∀ k, named k items → k ∈ d.av.map Prod.fst) → s.av = d.av
  usedMem : ∀ k v, (k, v) ∈ s.used.av → v = valueOf k d.av
  usedKeys : ∀ k, k ∈ s.used.av.map Prod.fst ↔ named k items ∨ (Item.all ∈ items ∧ k ∈ d.av.map Prod.fst)
  tags : s.used.tags = if Item.tags ∈ items then d.tags else []
  cat : s.used.category = if Item.cat ∈ items then d.category else []
  text : s.used.text = if Item.text ∈ items then d.text else []
  score : s.used.score = if Item.score ∈ items then d.score else st.zero
  sep : (∀ it ∈ items, it.isStar = false) → s.sep = s0.sep ∧ s.sub = s0.sub

theorem named_append (k : Str) (items : List Item) (it : Item) : named k (items ++ [it]) ↔ named k items ∨ ∃ br, it = .attr br k := by
  unfold named
  simp only [List.mem_append, List.mem_singleton]
  constructor
  · rintro ⟨br, h | h⟩
    · exact Or.inl ⟨br, h⟩
    · exact Or.inr ⟨br, h.symm⟩
  · rintro (⟨br, h⟩ | ⟨br, h⟩)
    · exact ⟨br, Or.inl h⟩
    · exact ⟨br, Or.inr h.symm⟩

theorem meaning_append (st : Style D) (d : Edge D) (a b : List Item) : meaning st d (a ++ b) = meaning st d a ++ meaning st d b := by
  unfold meaning; rw [List.flatMap_append]

theorem meaning_one (st : Style D) (d : Edge D) (it : Item) : meaning st d [it] = it.meaning st d := by
  simp [meaning]

/-- Parts that are not about attributes. -/
theorem named_other {k : Str} {items : List Item} {it : Item} (h : ∀ br k, it ≠ .attr br k) : named k (items ++ [it]) ↔ named k items := by
  rw [named_append]
  exact ⟨fun h' => h'.resolve_right (fun ⟨br, e⟩ => h br k e), Or.inl⟩

theorem Inv.start (st : Style D) (d : Edge D) (hd : InOrder d.av) (s0 : St D) (h1 : s0.av = d.av) (h2 : s0.used = noFields st) :
    Inv st d s0 [] s0 := by
  have hn : ∀ k, ¬ named k [] := fun k ⟨br, h⟩ => by cases h
  refine ⟨?_, ?_, ?_, ?_, ?_, ?_, ?_, ?_, ?_, ?_, ?_⟩
  · intro k; rw [h1]
  · intro k v h; rw [h1] at h; exact valueOf_mem hd h
  · intro k; rw [h1]; simp [hn]
  · intro _; exact h1
  · intro k v h; rw [h2] at h; cases h
  · intro k; rw [h2]; simp [hn, noFields]
  · rw [h2]; simp [noFields]
  · rw [h2]; simp [noFields]
  · rw [h2]; simp [noFields]
  · rw [h2]; simp [noFields]
  · intro _; exact ⟨rfl, rfl⟩

theorem Inv.step {st : Style D} {d : Edge D} (hd : InOrder d.av) {s0 s : St D} {items : List Item} (h : Inv st d s0 items s) (it : Item) :
    Inv st d s0 (items ++ [it]) (after st d s it) := by
  have hsep : (∀ i ∈ items ++ [it], i.isStar = false) → s.sep = s0.sep ∧ s.sub = s0.sub :=
    fun hx => h.sep (fun i hi => hx i (List.mem_append_left _ hi))
  obtain ⟨value, avMem, avKeys, avSame, usedMem, usedKeys, tags, cat, text, score, sep⟩ := h
  cases it with
  | attr br a =>
    have hna : ∀ k, named k (items ++ [Item.attr br a]) ↔ named k items ∨ k = a := by
      intro k
      rw [named_append]
      constructor
      · rintro (h | ⟨b, h⟩)
        · exact Or.inl h
        · injection h with _ h; exact Or.inr h.symm
      · rintro (h | h)
        · exact Or.inl h
        · exact Or.inr ⟨br, by rw [h]⟩
    have hv : lookup a s.av = valueOf a d.av := by rw [lookup_eq, value]
    refine ⟨?_, ?_, ?_, ?_, ?_, ?_, ?_, ?_, ?_, ?_, hsep⟩
    · intro k
      show valueOf k (insert a (lookup a s.av) s.av) = _
      rw [valueOf_insert, hv, value]
      split
      · rename_i e; rw [e]
      · rfl
    · intro k v hm
      rcases mem_insert hm with e | e
      · injection e with e1 e2
        rw [e2, hv, e1]
      · exact avMem k v e
    · intro k
      show k ∈ (insert a (lookup a s.av) s.av).map Prod.fst ↔ _
      rw [keys_insert, avKeys, hna]
      constructor
      · rintro (h | h | h)
        · exact Or.inr (Or.inr h)
        · exact Or.inl h
        · exact Or.inr (Or.inl h)
      · rintro (h | h | h)
        · exact Or.inr (Or.inl h)
        · exact Or.inr (Or.inr h)
        · exact Or.inl h
    · intro hp
      have e := avSame (fun k hk => hp k ((hna k).2 (Or.inl hk)))
      show insert a (lookup a s.av) s.av = d.av
      rw [hv, e, insert_same hd (hp a ((hna a).2 (Or.inr rfl)))]
    · intro k v hm
      rcases mem_insert hm with e | e
      · injection e with e1 e2
        rw [e2, hv, e1]
      · exact usedMem k v e
    · intro k
      show k ∈ (insert a (lookup a s.av) s.used.av).map Prod.fst ↔ _
      rw [keys_insert, usedKeys, hna]
      simp only [List.mem_append, List.mem_singleton, reduceCtorEq, or_false]
      constructor
      · rintro (h | h | h)
        · exact Or.inl (Or.inr h)
        · exact Or.inl (Or.inl h)
        · exact Or.inr h
      · rintro ((h | h) | h)
        · exact Or.inr (Or.inl h)
        · exact Or.inl h
        · exact Or.inr (Or.inr h)
    · simpa [after] using tags
    · simpa [after] using cat
    · simpa [after] using text
    · simpa [after] using score
  | all =>
    have hna : ∀ k, named k (items ++ [Item.all]) ↔ named k items := fun k => named_other (by simp)
    refine ⟨value, avMem, ?_, ?_, avMem, ?_, ?_, ?_, ?_, ?_, hsep⟩
    · intro k; rw [hna]; exact avKeys k
    · intro hp; exact avSame (fun k hk => hp k ((hna k).2 hk))
    · intro k
      show k ∈ s.av.map Prod.fst ↔ _
      rw [avKeys, hna]
      simp only [List.mem_append, List.mem_singleton, or_true, true_and]
      exact Or.comm
    · simpa [after] using tags
    · simpa [after] using cat
    · simpa [after] using text
    · simpa [after] using score
  | star br a b =>
    have hna : ∀ k, named k (items ++ [Item.star br a b]) ↔ named k items := fun k => named_other (by simp)
    refine ⟨value, avMem, ?_, ?_, usedMem, ?_, ?_, ?_, ?_, ?_, ?_⟩
    · intro k; rw [hna]; exact avKeys k
    · intro hp; exact avSame (fun k hk => hp k ((hna k).2 hk))
    · intro k; rw [hna]; simpa [after] using usedKeys k
    · simpa [after] using tags
    · simpa [after] using cat
    · simpa [after] using text
    · simpa [after] using score
    · intro hx
      have := hx (.star br a b) (by simp)
      cases this
  | tags =>
    have hna : ∀ k, named k (items ++ [Item.tags]) ↔ named k items := fun k => named_other (by simp)
    refine ⟨value, avMem, ?_, ?_, usedMem, ?_, ?_, ?_, ?_, ?_, hsep⟩
    · intro k; rw [hna]; exact avKeys k
    · intro hp; exact avSame (fun k hk => hp k ((hna k).2 hk))
    · intro k; rw [hna]; simpa [after] using usedKeys k
    · simp [after]
    · simpa [after] using cat
    · simpa [after] using text
    · simpa [after] using score
  | cat =>
    have hna : ∀ k, named k (items ++ [Item.cat]) ↔ named k items := fun k => named_other (by simp)
    refine ⟨value, avMem, ?_, ?_, usedMem, ?_, ?_, ?_, ?_, ?_, hsep⟩
    · intro k; rw [hna]; exact avKeys k
    · intro hp; exact avSame (fun k hk => hp k ((hna k).2 hk))
    · intro k; rw [hna]; simpa [after] using usedKeys k
    · simpa [after] using tags
    · simp [after]
    · simpa [after] using text
    · simpa [after] using score
  | text =>
    have hna : ∀ k, named k (items ++ [Item.text]) ↔ named k items := fun k => named_other (by simp)
    refine ⟨value, avMem, ?_, ?_, usedMem, ?_, ?_, ?_, ?_, ?_, hsep⟩
    · intro k; rw [hna]; exact avKeys k
    · intro hp; exact avSame (fun k hk => hp k ((hna k).2 hk))
    · intro k; rw [hna]; simpa [after] using usedKeys k
    · simpa [after] using tags
    · simpa [after] using cat
    · simp [after]
    · simpa [after] using score
  | score =>
    have hna : ∀ k, named k (items ++ [Item.score]) ↔ named k items := fun k => named_other (by simp)
    refine ⟨value, avMem, ?_, ?_, usedMem, ?_, ?_, ?_, ?_, ?_, hsep⟩
    · intro k; rw [hna]; exact avKeys k
    · intro hp; exact avSame (fun k hk => hp k ((hna k).2 hk))
    · intro k; rw [hna]; simpa [after] using usedKeys k
    · simpa [after] using tags
    · simpa [after] using cat
    · simpa [after] using text
    · simp [after]
  | role =>
    have hna : ∀ k, named k (items ++ [Item.role]) ↔ named k items := fun k => named_other (by simp)
    refine ⟨value, avMem, ?_, ?_, usedMem, ?_, ?_, ?_, ?_, ?_, hsep⟩
    · intro k; rw [hna]; exact avKeys k
    · intro hp; exact avSame (fun k hk => hp k ((hna k).2 hk))
    · intro k; rw [hna]; simpa [after] using usedKeys k
    · simpa [after] using tags
    · simpa [after] using cat
    · simpa [after] using text
    · simpa [after] using score
  | lit b =>
    have hna : ∀ k, named k (items ++ [Item.lit b]) ↔ named k items := fun k => named_other (by simp)
    refine ⟨value, avMem, ?_, ?_, usedMem, ?_, ?_, ?_, ?_, ?_, hsep⟩
    · intro k; rw [hna]; exact avKeys k
    · intro hp; exact avSame (fun k hk => hp k ((hna k).2 hk))
    · intro k; rw [hna]; simpa [after] using usedKeys k
    · simpa [after] using tags
    · simpa [after] using cat
    · simpa [after] using text
    · simpa [after] using score

theorem Inv.fold {st : Style D} {d : Edge D} (hd : InOrder d.av) {s0 s : St D} {items : List Item} (h : Inv st d s0 items s)
    (more : List Item) : Inv st d s0 (items ++ more) (more.foldl (after st d) s) := by
  induction more generalizing items s with
  | nil => simpa using h
  | cons it more ih =>
    have := ih (h.step hd it)
    simpa using this

theorem after_sep (st : Style D) (d : Edge D) (s : St D) (items : List Item) (h : ∀ it ∈ items, it.isStar = false) :
    (items.foldl (after st d) s).sep = s.sep ∧ (items.foldl (after st d) s).sub = s.sub := by
  induction items generalizing s with
  | nil => exact ⟨rfl, rfl⟩
  | cons it items ih =>
    have := ih (after st d s it) (fun i hi => h i (List.mem_cons_of_mem _ hi))
    have h0 := h it (by simp)
    rw [List.foldl_cons, this.1, this.2]
    cases it with
    | star => cases h0
    | _ => exact ⟨rfl, rfl⟩

/-! ### Lists -/

theorem agrees_iff {st : Style D} {d : Edge D} (hd : InOrder d.av) {s0 s : St D} {items : List Item} (h : Inv st d s0 items s) (e : Edge D) :
    agrees st s.used e = true ↔ ∀ it ∈ items, it.same st d e := by
  unfold agrees
  rw [h.tags, h.cat, h.text, h.score]
  simp only [Bool.and_eq_true, Bool.or_eq_true, decide_eq_true_eq, List.all_eq_true]
  constructor
  · rintro ⟨⟨⟨⟨h1, h2⟩, h3⟩, h4⟩, h5⟩ it hit
    have hk : ∀ k, k ∈ s.used.av.map Prod.fst → valueOf k e.av = valueOf k d.av := by
      intro k hk
      obtain ⟨⟨k', v⟩, hm, rfl⟩ := List.mem_map.1 hk
      have := h5 _ hm
      rw [lookup_eq] at this
      rw [this]
      exact h.usedMem _ _ hm
    cases it with
    | tags => rw [if_pos hit] at h3; exact h3
    | cat => rw [if_pos hit] at h1; exact h1
    | text => rw [if_pos hit] at h2; exact h2
    | score => rw [if_pos hit] at h4; exact h4
    | attr br a => exact hk a ((h.usedKeys a).2 (Or.inl ⟨br, hit⟩))
    | all =>
      intro q hq
      rw [hk q.1 ((h.usedKeys q.1).2 (Or.inr ⟨hit, List.mem_map.2 ⟨q, hq, rfl⟩⟩))]
      exact (valueOf_mem hd (k := q.1) (v := q.2) hq).symm
    | lit b => trivial
    | role => trivial
    | star => trivial
  · intro ha
    have iteq : ∀ {α : Type} (c : Prop) [Decidable c] (a z b : α), (c → a = z ∨ b = a) → (if c then a else z) = z ∨ b = (if c then a else z) := by
      intro α c _ a z b hc
      by_cases h : c
      · rw [if_pos h]; exact hc h
      · rw [if_neg h]; exact Or.inl rfl
    refine ⟨⟨⟨⟨?_, ?_⟩, ?_⟩, ?_⟩, ?_⟩
    · exact iteq _ _ _ _ (fun hm => ha .cat hm)
    · exact iteq _ _ _ _ (fun hm => ha .text hm)
    · exact iteq _ _ _ _ (fun hm => ha .tags hm)
    · exact iteq _ _ _ _ (fun hm => ha .score hm)
    · rintro ⟨k, v⟩ hm
      rw [lookup_eq]
      simp only
      have hv := h.usedMem k v hm
      have hk := (h.usedKeys k).1 (List.mem_map.2 ⟨(k, v), hm, rfl⟩)
      rcases hk with ⟨br, hk⟩ | ⟨hall, hk⟩
      · rw [hv]; exact ha _ hk
      · obtain ⟨⟨k', w⟩, hq, rfl⟩ := List.mem_map.1 hk
        have := ha _ hall (k', w) hq
        simp only at this
        rw [this, hv, ← valueOf_mem hd hq]

/-- The attributes as they were, up to names put in with no value. -/
structure Attrs (d : Edge D) (present : Prop) (s : St D) : Prop where
  value : ∀ k, valueOf k s.av = valueOf k d.av
  same : present → s.av = d.av

theorem Attrs.step {st : Style D} {d : Edge D} (hd : InOrder d.av) {present : Prop} {s : St D} (h : Attrs d present s) (it : Item)
    (hp : present → ∀ br k, it = .attr br k → k ∈ d.av.map Prod.fst) : Attrs d present (after st d s it) := by
  cases it with
  | attr br a =>
    have hv : lookup a s.av = valueOf a d.av := by rw [lookup_eq, h.value]
    refine ⟨fun k => ?_, fun hpr => ?_⟩
    · show valueOf k (insert a (lookup a s.av) s.av) = _
      rw [valueOf_insert, hv, h.value]
      split
      · rename_i e; rw [e]
      · rfl
    · show insert a (lookup a s.av) s.av = d.av
      rw [hv, h.same hpr, insert_same hd (hp hpr br a rfl)]
  | _ => exact ⟨h.value, h.same⟩

theorem fold_out {st : Style D} {d : Edge D} (hd : InOrder d.av) {present : Prop} (items : List Item) {s : St D} (h : Attrs d present s)
    (hp : present → ∀ k, named k items → k ∈ d.av.map Prod.fst) (ho : present ∨ Item.all ∉ items) :
    Attrs d present (items.foldl (after st d) s) ∧ (items.foldl (after st d) s).out = s.out ++ meaning st d items := by
  induction items generalizing s with
  | nil => exact ⟨h, by simp [meaning]⟩
  | cons it items ih =>
    have h1 : Attrs d present (after st d s it) := h.step hd it (fun hpr br k e => hp hpr k ⟨br, by simp [e]⟩)
    have := ih h1 (fun hpr k ⟨br, hk⟩ => hp hpr k ⟨br, List.mem_cons_of_mem _ hk⟩)
      (ho.imp id (fun h hm => h (List.mem_cons_of_mem _ hm)))
    rw [List.foldl_cons]
    refine ⟨this.1, ?_⟩
    rw [this.2]
    have e : (after st d s it).out = s.out ++ it.meaning st d := by
      cases it with
      | attr br a =>
        show s.out ++ lookup a s.av = _
        rw [lookup_eq, h.value]; rfl
      | all =>
        show s.out ++ joined _ (s.av.map _) = _
        rcases ho with ho | ho
        · rw [h.same ho, joined_eq]; rfl
        · exact absurd List.mem_cons_self ho
      | tags =>
        show s.out ++ joined _ _ = _
        rw [joined_eq]; rfl
      | _ => rfl
    rw [e, List.append_assoc]
    rfl

theorem replaceStar_eq (t a b : Str) (h : (37 : Byte) ∉ a) : replaceStar t (a ++ ([37, 42, 42, 42, 42, 42] ++ b)) = a ++ t ++ b := by
  induction a with
  | nil =>
    show replaceStar t (37 :: 42 :: 42 :: 42 :: 42 :: 42 :: b) = _
    rw [replaceStar, if_pos (by simp [List.isPrefixOf])]
    simp
  | cons c a ih =>
    simp only [List.mem_cons, not_or] at h
    rw [List.cons_append, replaceStar, if_neg, ih h.2]
    · simp
    · simp only [List.isPrefixOf, Bool.and_eq_true, beq_iff_eq]
      exact fun e => h.1 e.1

theorem replaceStar_none (t a : Str) (h : (37 : Byte) ∉ a) : replaceStar t a = a := by
  induction a with
  | nil => rfl
  | cons c a ih =>
    simp only [List.mem_cons, not_or] at h
    rw [replaceStar, if_neg, ih h.2]
    simp only [List.isPrefixOf, Bool.and_eq_true, beq_iff_eq]
    exact fun e => h.1 e.1

/-- All patterns. -/
def afterAll (st : Style D) (d : Edge D) (s : St D) : List (List Item) → List Str × St D
  | [] => ([], s)
  | p :: ps =>
    let s' := p.foldl (after st d) { s with out := [] }
    (s'.out :: (afterAll st d s' ps).1, (afterAll st d s' ps).2)

theorem expandAll_items (st : Style D) (d : Edge D) (f : Nat) (ps : List (List Item)) (hf : ∀ p ∈ ps, ∀ it ∈ p, it.Fits)
    (hfuel : ∀ p ∈ ps, (unparse p).length < f) (s : St D) :
    expandAll st d f (ps.map unparse) s = some (afterAll st d s ps) := by
  induction ps generalizing s with
  | nil => rfl
  | cons p ps ih =>
    have := expand_items st d p (hf p (by simp)) [] { s with out := [] } f (hfuel p (by simp))
    rw [List.nil_append, List.length_nil] at this
    rw [List.map_cons, expandAll]
    simp only [this, Option.bind_eq_bind, Option.bind_some]
    rw [ih (fun p h => hf p (List.mem_cons_of_mem _ h)) (fun p h => hfuel p (List.mem_cons_of_mem _ h))]
    rfl

theorem afterAll_out {st : Style D} {d : Edge D} (hd : InOrder d.av) {present : Prop} (ps : List (List Item)) {s : St D}
    (h : Attrs d present s) (hp : present → ∀ k, named k ps.flatten → k ∈ d.av.map Prod.fst) (ho : present ∨ Item.all ∉ ps.flatten) :
    (afterAll st d s ps).1 = ps.map (meaning st d) := by
  induction ps generalizing s with
  | nil => rfl
  | cons p ps ih =>
    have h0 : Attrs d present { s with out := [] } := ⟨h.value, h.same⟩
    have := fold_out (st := st) hd p h0 (fun hpr k ⟨br, hk⟩ => hp hpr k ⟨br, by simp [hk]⟩)
      (ho.imp id (fun h hm => h (by simp [hm])))
    rw [afterAll]
    simp only [List.map_cons]
    rw [this.2, ih this.1 (fun hpr k ⟨br, hk⟩ => hp hpr k ⟨br, by
      rw [List.flatten_cons, List.mem_append]; exact Or.inr hk⟩) (ho.imp id (fun h hm => h (by
      rw [List.flatten_cons, List.mem_append]; exact Or.inr hm)))]
    rfl

theorem afterAll_sep {st : Style D} {d : Edge D} (ps : List (List Item)) (hs : ∀ p ∈ ps, ∀ it ∈ p, it.isStar = false) (s : St D) :
    (afterAll st d s ps).2.sep = s.sep ∧ (afterAll st d s ps).2.sub = s.sub := by
  induction ps generalizing s with
  | nil => exact ⟨rfl, rfl⟩
  | cons p ps ih =>
    have h1 := after_sep st d { s with out := [] } p (hs p (by simp))
    have h2 := ih (fun p h => hs p (List.mem_cons_of_mem _ h)) (p.foldl (after st d) { s with out := [] })
    rw [afterAll]
    simp only
    rw [h2.1, h2.2, h1.1, h1.2]
    exact ⟨rfl, rfl⟩

theorem Inv.reset {st : Style D} {d : Edge D} {s0 s : St D} {items : List Item} (h : Inv st d s0 items s) : Inv st d s0 items { s with out := [] } := by
  obtain ⟨value, avMem, avKeys, avSame, usedMem, usedKeys, tags, cat, text, score, sep⟩ := h
  exact ⟨value, avMem, avKeys, avSame, usedMem, usedKeys, tags, cat, text, score, sep⟩

theorem afterAll_inv {st : Style D} {d : Edge D} (hd : InOrder d.av) (ps : List (List Item)) {s0 s : St D} {items : List Item}
    (h : Inv st d s0 items s) : Inv st d s0 (items ++ ps.flatten) (afterAll st d s ps).2 := by
  induction ps generalizing s items with
  | nil => simpa [afterAll] using h
  | cons p ps ih =>
    have := ih (h.reset.fold hd p)
    rw [afterAll]
    simpa using this

theorem mapM_some {α β : Type} (f : α → Option β) (g : α → β) (l : List α) (h : ∀ a ∈ l, f a = some (g a)) : l.mapM f = some (l.map g) := by
  induction l with
  | nil => rfl
  | cons a l ih =>
    rw [List.mapM_cons, h a (by simp), ih (fun a ha => h a (List.mem_cons_of_mem _ ha))]
    rfl

end Verif.Bracket
