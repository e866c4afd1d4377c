import Verif.Lattice.KinSpec
import Verif.Lattice.CutLemmas

/-!
Lemmas about the descent of edges and the paths that skip edges.
-/
set_option linter.unusedVariables false
set_option linter.unusedSimpArgs false

namespace Verif.Lattice
open Verif Verif.Tags Verif.Tags.Spec Verif.Lattice.Spec

/-! ### States alike -/

/-- The state but for the mask of symbols and with the manager `m`. -/
def Like (s : State) (m : Manager) (s' : State) : Prop :=
  s' = { s with mgr := m } ∨ s' = { addTagMaskIndex s symbolMask with mgr := m }

theorem Like.refl (s : State) : Like s s.mgr s := .inl rfl

theorem Like.setMgr {s s' : State} {m : Manager} (h : Like s m s') (m' : Manager) : Like s m' { s' with mgr := m' } := by
  rcases h with rfl | rfl
  · exact .inl rfl
  · exact .inr rfl

theorem Like.mgr {s s' : State} {m : Manager} (h : Like s m s') : s'.mgr = m := by
  rcases h with rfl | rfl <;> rfl

theorem register_setMgr (s : State) (m : Manager) (k : Mask) :
    addTagMaskIndex { s with mgr := m } k = { addTagMaskIndex s k with mgr := m } := by
  unfold addTagMaskIndex
  have h : State.findMask { s with mgr := m } k = s.findMask k := rfl
  rw [h]
  cases s.findMask k <;> rfl

theorem Like.register {s s' : State} {m : Manager} (h : Like s m s') :
    addTagMaskIndex s' symbolMask = { addTagMaskIndex s symbolMask with mgr := m } := by
  rcases h with rfl | rfl
  · exact register_setMgr s m _
  · have := register_setMgr (addTagMaskIndex s symbolMask) m symbolMask
    rw [register_twice] at this
    exact this

theorem Like.outs {s s' : State} {m : Manager} (h : Like s m s') (v : Vertex) :
    (outEdges s' v symbolMask).1 = (outEdges s v symbolMask).1 := by
  have ha : symbolMask.any = false := rfl
  unfold outEdges
  simp only [ha, Bool.false_eq_true, if_false]
  rw [h.register]
  rfl

theorem Like.outs' {s s' : State} {m : Manager} (h : Like s m s') (v : Vertex) : Like s m (outEdges s' v symbolMask).2 := by
  have ha : symbolMask.any = false := rfl
  unfold outEdges
  simp only [ha, Bool.false_eq_true, if_false]
  rw [h.register]
  exact .inr rfl

theorem Like.tags {s s' : State} {m : Manager} (h : Like s m s') (e : Edge) : s'.tags e = s.tags e := by
  rcases h with rfl | rfl
  · rfl
  · cases e with
    | impl i => rfl
    | expl k => exact congrArg Entry.tags (register_entry s symbolMask k)

theorem Like.parts {s s' : State} {m : Manager} (h : Like s m s') (e : Edge) : s'.parts e = s.parts e := by
  rcases h with rfl | rfl
  · rfl
  · cases e with
    | impl i => rfl
    | expl k => exact congrArg Entry.parts (register_entry s symbolMask k)

theorem Like.symLen {s s' : State} {m : Manager} (h : Like s m s') (i : Nat) : s'.symLen i = s.symLen i := by
  rcases h with rfl | rfl
  · rfl
  · exact (alike_register s symbolMask).symLen i

theorem Like.tgt {s s' : State} {m : Manager} (h : Like s m s') (e : Edge) : s'.tgt e = s.tgt e := by
  cases e with
  | impl i => simp only [State.tgt, h.symLen]
  | expl k =>
    rcases h with rfl | rfl
    · rfl
    · exact congrArg Entry.tgt (register_entry s symbolMask k)

theorem Like.firstOut {s s' : State} {m : Manager} (h : Like s m s') {v : Vertex} {d : Edge} {l : List Edge}
    (hd : (outEdges s v symbolMask).1 = d :: l) : ∃ s'', firstOut s' v symbolMask = (.ok d, s'') ∧ Like s m s'' := by
  have h1 := h.outs v
  have h2 := h.outs' v
  rw [hd] at h1
  unfold Lattice.firstOut
  cases hq : outEdges s' v symbolMask with
  | mk a b =>
    rw [hq] at h1 h2
    simp only at h1
    subst h1
    exact ⟨b, rfl, h2⟩

/-! ### Iterating over a sequence -/

/-- The iterator yields the edges. -/
inductive Listing (s : State) : Iter → List Edge → Prop
  | done {it} : it.hasNext = false → Listing s it []
  | more {it it' e es} : it.hasNext = true →
      (∀ m s', Like s m s' → ∃ s'', it.next s' = (.ok e, it', s'') ∧ Like s m s'') → Listing s it' es →
      Listing s it (e :: es)

theorem listing_links {s : State} {q : Sequence} (hq : q.links ≠ []) (si : Nat) (us : List Usage) :
    ∀ ei, q.links.drop ei = us → Listing s ⟨q, ei, si⟩ (us.map (·.edge)) := by
  induction us with
  | nil =>
    intro ei h
    refine .done ?_
    have := List.drop_eq_nil_iff.1 h
    simp only [Iter.hasNext, hq, if_false, decide_eq_false_iff_not]
    omega
  | cons u us ih =>
    intro ei h
    have hlt : ei < q.links.length := by
      by_contra hc
      rw [List.drop_eq_nil_of_le (by omega)] at h
      cases h
    have hu : q.links[ei]? = some u := by
      have := congrArg List.head? h
      simpa using this
    have ht : q.links.drop (ei + 1) = us := by
      have := congrArg List.tail h
      simpa [List.tail_drop] using this
    refine .more (it' := ⟨q, ei + 1, si⟩) (by simp [Iter.hasNext, hq, hlt]) ?_ (ih _ ht)
    intro m s' hs'
    refine ⟨s', ?_, hs'⟩
    simp only [Iter.next, hq, if_false, hu]

theorem listing_range {s : State} {q : Sequence} (hq : q.links = []) (ei : Nat) (n : Nat) :
    ∀ si es, q.end_ ≤ si + n → rangeEdges (addTagMaskIndex s symbolMask) q.end_ n si = .ok es →
      Listing s ⟨q, ei, si⟩ es ∧ es.length ≤ n := by
  induction n with
  | zero =>
    intro si es hn h
    unfold rangeEdges at h
    cases h
    refine ⟨.done ?_, by simp⟩
    simp only [Iter.hasNext, hq, if_true, decide_eq_false_iff_not]
    omega
  | succ n ih =>
    intro si es hn h
    have hr : Like s s.mgr (addTagMaskIndex s symbolMask) := (.inr (by cases hs : s.findMask symbolMask <;> simp [addTagMaskIndex, hs]))
    unfold rangeEdges at h
    split at h
    · rename_i hlt
      rw [hr.outs] at h
      split at h
      · cases h
      · rename_i d l hd
        split at h
        · cases h
        · rename_i es' hrest
          cases h
          rw [hr.symLen] at hrest
          have hp := symLen_pos s si
          obtain ⟨h1, h2⟩ := ih (si + s.symLen si) es' (by omega) hrest
          refine ⟨.more (it' := ⟨q, ei, si + s.symLen si⟩) (by simp [Iter.hasNext, hq, hlt]) ?_ h1, by simp; omega⟩
          intro m s' hs'
          obtain ⟨s'', h3, h4⟩ := hs'.firstOut hd
          refine ⟨s'', ?_, h4⟩
          simp only [Iter.next, hq, if_true, hlt, h3, hs'.symLen]
    · rename_i hlt
      cases h
      refine ⟨.done ?_, by simp⟩
      simp only [Iter.hasNext, hq, if_true, decide_eq_false_iff_not]
      omega

theorem listing {s : State} {q : Sequence} {es : List Edge} (h : (sequenceEdges s q).1 = .ok es) :
    Listing s (Iter.start q) es ∧ es.length ≤ (Iter.start q).left := by
  unfold sequenceEdges at h
  by_cases hq : q.links = []
  · rw [if_pos hq] at h
    have hl : (Iter.start q).left = q.end_ - q.begin_ := by simp [Iter.left, Iter.start, hq]
    rw [hl]
    split at h
    · exact listing_range hq 0 _ q.begin_ es (by omega) h
    · cases h
      refine ⟨.done ?_, by simp⟩
      simp only [Iter.hasNext, Iter.start, hq, if_true]
      exact decide_eq_false (by assumption)
  · rw [if_neg hq] at h
    cases h
    refine ⟨listing_links hq q.begin_ q.links 0 rfl, ?_⟩
    simp [Iter.left, Iter.start, hq]

/-! ### Children and parents -/

theorem useLoop_ok {s : State} (parent : Edge) {it : Iter} {es : List Edge} (h : Listing s it es) :
    ∀ n m s', es.length ≤ n → Like s m s' →
      ∃ s'', useLoop parent n s' it = (.ok (es.count parent), s'') ∧ Like s m s'' := by
  induction h with
  | done hn =>
    intro n m s' _ hs
    refine ⟨s', ?_, hs⟩
    cases n <;> simp [useLoop, hn]
  | @more it it' e es hn hnext _ ih =>
    intro n m s' hle hs
    cases n with
    | zero => simp at hle
    | succ n =>
      obtain ⟨s1, h1, h2⟩ := hnext m s' hs
      obtain ⟨s2, h3, h4⟩ := ih n m s1 (by simpa using hle) h2
      refine ⟨s2, ?_, h4⟩
      simp only [useLoop, hn, if_true, h1, h3, List.count_cons]
      by_cases he : e = parent
      · simp [he]
      · simp [he]

theorem usesIn_ok {s : State} (parent : Edge) {ps : List Partition} {gs : List (List Edge)}
    (h : List.Forall₂ (fun (p : Partition) g => (sequenceEdges s p.seq).1 = .ok g) ps gs) :
    ∀ m s', Like s m s' → ∃ s'', usesIn parent ps s' = (.ok (gs.flatten.count parent), s'') ∧ Like s m s'' := by
  induction h with
  | nil => intro m s' hs; exact ⟨s', rfl, hs⟩
  | cons hp _ ih =>
    intro m s' hs
    obtain ⟨h1, h2⟩ := listing hp
    obtain ⟨s1, h3, h4⟩ := useLoop_ok parent h1 _ m s' h2 hs
    obtain ⟨s2, h5, h6⟩ := ih m s1 h4
    refine ⟨s2, ?_, h6⟩
    simp only [usesIn, h3, h5, List.flatten_cons, List.count_append]

theorem childLoop_ok {s : State} (parent : Edge) (t : Vertex) {cs : List Edge} {made : Edge → List (List Edge)}
    (h : ∀ c ∈ cs, s.tgt c = t → MadeOf s c (made c)) :
    ∀ m s', Like s m s' → ∃ s'', childLoop parent t cs s' =
      (.ok (cs.flatMap (fun c => if s.tgt c = t then List.replicate ((made c).flatten.count parent) c else [])), s'') ∧
        Like s m s'' := by
  induction cs with
  | nil => intro m s' hs; exact ⟨s', rfl, hs⟩
  | cons c cs ih =>
    intro m s' hs
    have ih' := ih (fun c hc => h c (List.mem_cons_of_mem _ hc))
    unfold childLoop
    rw [hs.tgt]
    by_cases hc : s.tgt c = t
    · obtain ⟨s1, h1, h2⟩ := usesIn_ok parent (h c (by simp) hc) m s' hs
      obtain ⟨s2, h3, h4⟩ := ih' m s1 h2
      refine ⟨s2, ?_, h4⟩
      simp only [hc, if_true, hs.parts, h1, h3, List.flatMap_cons]
    · obtain ⟨s2, h3, h4⟩ := ih' m s' hs
      refine ⟨s2, ?_, h4⟩
      simp only [hc, if_false, h3, List.flatMap_cons, List.nil_append]

theorem parentLoop_ok {s : State} (mask : Mask) {it : Iter} {es : List Edge} (h : Listing s it es) :
    ∀ n m s', es.length ≤ n → Like s m s' →
      ∃ s'', parentLoop mask n s' it = (.ok (es.find? (fun e => «matches» (s.tags e) mask)), s'') ∧ Like s m s'' := by
  induction h with
  | done hn =>
    intro n m s' _ hs
    refine ⟨s', ?_, hs⟩
    cases n <;> simp [parentLoop, hn]
  | @more it it' e es hn hnext _ ih =>
    intro n m s' hle hs
    cases n with
    | zero => simp at hle
    | succ n =>
      obtain ⟨s1, h1, h2⟩ := hnext m s' hs
      simp only [parentLoop, hn, if_true, h1, h2.tags, List.find?_cons]
      cases hm : «matches» (s.tags e) mask with
      | true => exact ⟨s1, by simp, h2⟩
      | false =>
        obtain ⟨s2, h3, h4⟩ := ih n m s1 (by simpa using hle) h2
        exact ⟨s2, by simpa using h3, h4⟩

theorem parentIn_ok {s : State} (mask : Mask) {ps : List Partition} {gs : List (List Edge)}
    (h : List.Forall₂ (fun (p : Partition) g => (sequenceEdges s p.seq).1 = .ok g) ps gs) :
    ∀ m s', Like s m s' → ∃ s'', parentIn mask ps s' =
      (.ok (gs.flatten.find? (fun e => «matches» (s.tags e) mask)), s'') ∧ Like s m s'' := by
  induction h with
  | nil => intro m s' hs; exact ⟨s', rfl, hs⟩
  | @cons p g ps gs hp _ ih =>
    intro m s' hs
    obtain ⟨h1, h2⟩ := listing hp
    obtain ⟨s1, h3, h4⟩ := parentLoop_ok mask h1 _ m s' h2 hs
    simp only [parentIn, h3, List.flatten_cons, List.find?_append]
    cases hf : g.find? (fun e => «matches» (s.tags e) mask) with
    | some e => exact ⟨s1, by simp, h4⟩
    | none =>
      obtain ⟨s2, h5, h6⟩ := ih m s1 h4
      exact ⟨s2, by simpa using h5, h6⟩

theorem getParent_ok {s s' : State} {m : Manager} (hs : Like s m s') (mask : Mask) {e : Edge} {gs : List (List Edge)} (h : MadeOf s e gs) :
    ∃ s'', getParent s' e mask = (.ok (gs.flatten.find? (fun e => «matches» (s.tags e) mask)), s'') ∧ Like s m s'' := by
  unfold getParent
  rw [hs.parts]
  exact parentIn_ok mask h m s' hs

theorem matches_any (t : TagSet) : «matches» t (Mask.ofBool true) = true := by
  simp [«matches», Mask.ofBool]

theorem getParent_first {s s' : State} {m : Manager} (hs : Like s m s') {e : Edge} {p : Option Edge} (h : FirstParent s e p) :
    ∃ s'', getParent s' e (Mask.ofBool true) = (.ok p, s'') ∧ Like s m s'' := by
  obtain ⟨gs, h1, rfl⟩ := h
  obtain ⟨s'', h2, h3⟩ := getParent_ok hs (Mask.ofBool true) h1
  refine ⟨s'', ?_, h3⟩
  rw [h2]
  have : (fun e => «matches» (s.tags e) (Mask.ofBool true)) = fun _ => true := by
    funext e; exact matches_any _
  rw [this]
  cases gs.flatten <;> rfl

/-- The first parent is unique. -/
theorem madeOf_unique {s : State} {e : Edge} {gs gs' : List (List Edge)} (h : MadeOf s e gs) (h' : MadeOf s e gs') :
    gs = gs' := by
  unfold MadeOf at h h'
  generalize s.parts e = ps at h h'
  induction h generalizing gs' with
  | nil => cases h'; rfl
  | cons hp _ ih =>
    cases h' with
    | cons hp' h' =>
      rw [hp] at hp'
      cases hp'
      rw [ih h']

theorem firstParent_unique {s : State} {e : Edge} {p p' : Option Edge} (h : FirstParent s e p) (h' : FirstParent s e p') :
    p = p' := by
  obtain ⟨gs, h1, rfl⟩ := h
  obtain ⟨gs', h2, rfl⟩ := h'
  rw [madeOf_unique h1 h2]

theorem isThere_has {s : State} (hi : Inv s) {t : TagSet} (ht : ∀ j, t.getLsbD j = true → ∃ n, s.mgr.names[j]? = some n)
    {name : Str} {m : Manager} (hm : m = s.mgr ∨ m = s.mgr.insert name)
    (hroom : Room s name) :
    ∃ b, isThere m name t = some (s.mgr.insert name, b) ∧ (b = true ↔ Has s.mgr t name) := by
  have htwice : (s.mgr.insert name).insert name = s.mgr.insert name := by
    have := insert_names s.mgr name
    generalize s.mgr.insert name = m at this
    unfold Manager.insert
    simp [this]
  have hins : m.insert name = s.mgr.insert name := by
    rcases hm with rfl | rfl
    · rfl
    · exact htwice
  have hget := getElem?_idxOf (insert_names s.mgr name)
  have hinv := insert_inv hi.mgrInv name
  have hlt : (s.mgr.insert name).names.idxOf name < 64 := by
    rcases hroom with ⟨i, hi64, hn⟩ | hl
    · have := nodup_get hinv.1 ((insert_grows s.mgr name).get hn) hget
      omega
    · have h1 := List.idxOf_lt_length_of_mem (insert_names s.mgr name)
      have h2 : (s.mgr.insert name).names.length ≤ s.mgr.names.length + 1 := by
        unfold Manager.insert; split <;> simp
      omega
  refine ⟨t.getLsbD ((s.mgr.insert name).names.idxOf name), ?_, ?_⟩
  · simp only [isThere, hins]
    rw [if_neg (by omega)]
  · constructor
    · intro hb
      obtain ⟨n, hn⟩ := ht _ hb
      have := (insert_grows s.mgr name).get hn
      rw [hget] at this; simp at this; subst this
      exact ⟨_, hn, hb⟩
    · rintro ⟨i, h1, h2⟩
      have h3 := nodup_get hinv.1 ((insert_grows s.mgr name).get h1) hget
      rw [← h3]; exact h2

theorem Inv.bits {s : State} (hi : Inv s) (e : Edge) (j : Nat)
    (h : (s.tags e).getLsbD j = true) : ∃ n, s.mgr.names[j]? = some n := by
  cases e with
  | impl i => exact (hi.symbolOkay).1 j h
  | expl k =>
    by_cases hk : k < s.edges.length
    · exact (hi.entries k hk).okay.1 j h
    · have h0 : s.entry k = default := by
        unfold State.entry
        simp [List.getD_eq_getElem?_getD, List.getElem?_eq_none (Nat.le_of_not_lt hk)]
      have h1 : s.tags (.expl k) = 0#64 := by
        show (s.entry k).tags = _
        rw [h0]; rfl
      rw [h1] at h
      simp at h

theorem origin_parent {s : State} {name : Str} {n : Nat} {e : Edge} {r : Option Edge} (h : Origin s name n e r) :
    ∃ p, FirstParent s e p := by
  cases h with
  | none h => exact ⟨_, h⟩
  | here h _ => exact ⟨_, h⟩
  | up h _ _ => exact ⟨_, h⟩

theorem origin_ok {s : State} (hi : Inv s) {name : Str} (hroom : Room s name) {n : Nat} {e : Edge} {r : Option Edge}
    (h : Origin s name n e r) : ∀ fuel m s' p, n < fuel → Like s m s' → (m = s.mgr ∨ m = s.mgr.insert name) →
      FirstParent s e p → ∃ m' s'', originLoop name fuel s' p = some (.ok r, s'') ∧ Like s m' s'' ∧
        (m' = s.mgr ∨ m' = s.mgr.insert name) := by
  induction h with
  | @none e hp =>
    intro fuel m s' p hf hs hm hp'
    rw [← firstParent_unique hp hp']
    obtain ⟨fuel, rfl⟩ : ∃ k, fuel = k + 1 := ⟨fuel - 1, by omega⟩
    exact ⟨m, s', rfl, hs, hm⟩
  | @here e q hp ht =>
    intro fuel m s' p hf hs hm hp'
    rw [← firstParent_unique hp hp']
    obtain ⟨fuel, rfl⟩ : ∃ k, fuel = k + 1 := ⟨fuel - 1, by omega⟩
    obtain ⟨b, h1, h2⟩ := isThere_has hi (hi.bits q) hm hroom
    have hb : b = true := h2.2 ht
    subst hb
    refine ⟨_, _, ?_, hs.setMgr (s.mgr.insert name), .inr rfl⟩
    simp only [originLoop, hs.mgr, hs.tags, h1]
  | @up n e q r hp ht ho ih =>
    intro fuel m s' p hf hs hm hp'
    rw [← firstParent_unique hp hp']
    obtain ⟨fuel, rfl⟩ : ∃ k, fuel = k + 1 := ⟨fuel - 1, by omega⟩
    obtain ⟨b, h1, h2⟩ := isThere_has hi (hi.bits q) hm hroom
    have hb : b = false := by
      cases b with
      | true => exact absurd (h2.1 rfl) ht
      | false => rfl
    subst hb
    obtain ⟨p', hp2⟩ := origin_parent ho
    obtain ⟨s2, h3, h4⟩ := getParent_first (hs.setMgr (s.mgr.insert name)) hp2
    simp only [originLoop, hs.mgr, hs.tags, h1, h3]
    exact ih fuel _ s2 p' (by omega) h4 (.inr rfl) hp2

theorem founded_origin {s : State} (hf : Founded s) (name : Str) (k : Nat) :
    k < s.edges.length → ∃ n r, Origin s name n (.expl k) r ∧ n ≤ k + 1 := by
  induction k using Nat.strongRecOn with
  | ind k ih =>
    intro hk
    obtain ⟨gs, h1, h2⟩ := hf k hk
    have hfp : FirstParent s (.expl k) gs.flatten.head? := ⟨gs, h1, rfl⟩
    cases hh : gs.flatten.head? with
    | none => exact ⟨0, none, .none (hh ▸ hfp), by omega⟩
    | some p =>
      rw [hh] at hfp
      by_cases ht : Has s.mgr (s.tags p) name
      · exact ⟨0, _, .here hfp ht, by omega⟩
      · cases p with
        | impl i =>
          refine ⟨1, none, .up hfp ht (.none ⟨[], ?_, rfl⟩), by omega⟩
          exact List.Forall₂.nil
        | expl j =>
          have hj := h2 j (List.mem_of_head? hh)
          obtain ⟨n, r, h3, h4⟩ := ih j hj (by omega)
          exact ⟨n + 1, r, .up hfp ht h3, by omega⟩

/-! ### What can be seen -/

theorem view_mgr (s : State) (m : Manager) : SameView s { s with mgr := m } := by
  have hq : ∀ mask, addTagMaskIndex { s with mgr := m } mask = { addTagMaskIndex s mask with mgr := m } :=
    fun mask => register_setMgr s m mask
  refine ⟨rfl, fun _ => rfl, fun _ => rfl, ?_, ?_, ?_, ?_, ?_, ?_, ?_, ?_, ?_, fun _ _ => rfl, rfl⟩
  · intro v mask
    unfold outEdges
    split
    · rfl
    · rw [hq]; rfl
  · intro v mask
    unfold inEdges
    split
    · rfl
    · rw [hq]
      have : ({ addTagMaskIndex s mask with mgr := m } : State).implicitIn v = (addTagMaskIndex s mask).implicitIn v := rfl
      dsimp only
      rw [this]
      cases (addTagMaskIndex s mask).implicitIn v <;> rfl
  all_goals intro e; cases e <;> rfl

theorem SameView.trans' {a b c : State} (h : SameView a b) (h' : SameView b c) : SameView a c :=
  ⟨h'.text.trans h.text, fun v => (h'.outs v).trans (h.outs v), fun v => (h'.ins v).trans (h.ins v),
    fun v m => (h'.maskOuts v m).trans (h.maskOuts v m), fun v m => (h'.maskIns v m).trans (h.maskIns v m),
    fun e => (h'.src e).trans (h.src e), fun e => (h'.tgt e).trans (h.tgt e), fun e => (h'.item e).trans (h.item e),
    fun e => (h'.tags e).trans (h.tags e), fun e => (h'.score e).trans (h.score e), fun e => (h'.parts e).trans (h.parts e),
    fun e => (h'.hidden e).trans (h.hidden e), fun u v => (h'.count u v).trans (h.count u v), h'.last.trans h.last⟩

theorem Like.view {s s' : State} (hi : Inv s) {m : Manager} (h : Like s m s') : SameView s s' := by
  rcases h with rfl | rfl
  · exact view_mgr s m
  · exact SameView.trans' (view_register hi (m := symbolMask) rfl) (view_mgr _ m)

theorem range_view {a b : State} (h : SameView a b) (end_ n si : Nat) : rangeEdges b end_ n si = rangeEdges a end_ n si := by
  have hs : ∀ i, b.symLen i = a.symLen i := by intro i; unfold State.symLen; rw [h.text]
  induction n generalizing si with
  | zero => rfl
  | succ n ih =>
    unfold rangeEdges
    rw [h.maskOuts, hs, ih]

theorem sequence_view {a b : State} (ha : Inv a) (hb : Inv b) (h : SameView a b) (q : Sequence) :
    (sequenceEdges b q).1 = (sequenceEdges a q).1 := by
  unfold sequenceEdges
  split
  · split
    · dsimp only
      rw [range_view (view_register hb (m := symbolMask) rfl), range_view h,
        range_view (view_register ha (m := symbolMask) rfl)]
    · rfl
  · rfl

theorem madeOf_view {a b : State} (ha : Inv a) (hb : Inv b) (h : SameView a b) {e : Edge} {gs : List (List Edge)} :
    MadeOf b e gs ↔ MadeOf a e gs := by
  unfold MadeOf
  rw [h.parts]
  have : (fun (p : Partition) g => (sequenceEdges b p.seq).1 = .ok g) = fun (p : Partition) g => (sequenceEdges a p.seq).1 = .ok g := by
    funext p g
    rw [sequence_view ha hb h]
  rw [this]

/-! ### Paths -/

theorem skipScan_mem {p : Edge → Bool} (b : Edge) (l : List Edge) {r : Edge} (h : skipScan p b l = .ok r) : r ∈ b :: l := by
  fun_induction skipScan p b l with
  | case1 best => cases h; simp
  | case2 => cases h
  | case3 best c hc d rest ih =>
    rcases List.mem_cons.1 (ih h) with rfl | h'
    · simp
    · simp [h']
  | case4 best c rest hc ih =>
    rcases List.mem_cons.1 (ih h) with rfl | h'
    · simp
    · simp [h']

theorem skipScan_error {p : Edge → Bool} (b : Edge) (l : List Edge) {x : Exn} (h : skipScan p b l = .error x) :
    x = .noEdge ∧ ∃ d, l.getLast? = some d ∧ p d = true := by
  fun_induction skipScan p b l with
  | case1 best => cases h
  | case2 best c hc => cases h; exact ⟨rfl, c, rfl, hc⟩
  | case3 best c hc d rest ih =>
    obtain ⟨h1, d', h2, h3⟩ := ih h
    refine ⟨h1, d', ?_, h3⟩
    cases rest with
    | nil => simp at h2
    | cons a r => simpa using h2
  | case4 best c rest hc ih =>
    obtain ⟨h1, d', h2, h3⟩ := ih h
    refine ⟨h1, d', ?_, h3⟩
    cases rest with
    | nil => simp at h2
    | cons a r => simpa using h2

theorem skipScan_none {p : Edge → Bool} (b : Edge) (l : List Edge) (h : ∀ e ∈ l, p e = false) : skipScan p b l = .ok b := by
  induction l with
  | nil => rfl
  | cons c l ih =>
    unfold skipScan
    rw [if_neg (by simp [h c (by simp)])]
    exact ih (fun e he => h e (by simp [he]))

/-- The edge that the loop takes at a vertex. -/
def Takes (s : State) (p : Edge → Bool) (mask : Mask) (v : Vertex) (e : Edge) : Prop :=
  (outEdges s v mask).1.getLast? = some e ∨
    ((outEdges s v mask).1 = [] ∧ ∃ a l, s.allOutEdges v = a :: l ∧ skipScan p a l = .ok e)

/-- The edges that the loop takes. -/
inductive TakesAll (s : State) (p : Edge → Bool) (mask : Mask) : Vertex → List Edge → Vertex → Prop
  | nil {v} : TakesAll s p mask v [] v
  | cons {v e es w} : Takes s p mask v e → TakesAll s p mask (s.tgt e) es w → TakesAll s p mask v (e :: es) w

theorem TakesAll.snoc {s : State} {p : Edge → Bool} {mask : Mask} {u v : Vertex} {l : List Edge} {e : Edge}
    (h : TakesAll s p mask u l v) (he : Takes s p mask v e) : TakesAll s p mask u (l ++ [e]) (s.tgt e) := by
  induction h with
  | nil => exact .cons he .nil
  | cons h _ ih => exact .cons h (ih he)

/-- How the loop ends. -/
inductive Ends (s : State) (p : Edge → Bool) (mask : Mask) (v : Vertex) : Option Exn → Prop
  | stop : (outEdges s v mask).1 = [] → s.allOutEdges v = [] → Ends s p mask v none
  | throw {a l} : (outEdges s v mask).1 = [] → s.allOutEdges v = a :: l → skipScan p a l = .error .noEdge →
      Ends s p mask v (some .noEdge)

theorem out_all {s : State} (hi : Inv s) {v : Vertex} {mask : Mask} {best : Edge} (hmem : best ∈ (outEdges s v mask).1) :
    best ∈ s.allOutEdges v := by
  rw [outEdges_fst] at hmem
  split at hmem
  · exact hmem
  · rename_i ha
    rw [List.mem_append] at hmem
    rcases hmem with h | h
    · split at h
      · exact List.mem_append_left _ h
      · simp at h
    · simp only [List.mem_map, List.mem_filter, decide_eq_true_eq] at h
      obtain ⟨k, ⟨hk, hs'⟩, rfl⟩ := h
      exact expl_mem_allOut.2
        ⟨(mem_matching.1 ((indexFor_sublist hi (by simpa using ha)).subset hk)).1, hs'⟩

theorem Takes.mem {s : State} (hi : Inv s) {p : Edge → Bool} {mask : Mask} {v : Vertex} {e : Edge}
    (h : Takes s p mask v e) : e ∈ s.allOutEdges v := by
  rcases h with h | ⟨_, a, l, h1, h2⟩
  · exact out_all hi (List.mem_of_getLast? h)
  · rw [h1]; exact skipScan_mem _ _ h2

theorem skip_loop {s0 : State} (hi : Inv s0) (hl : s0.nLoose = 0) (p : State → Edge → Bool) (mask : Mask)
    (hp : p (queried s0 mask) = p s0) (n : Nat) {s : State}
    (hs : queried s mask = queried s0 mask) (hv0 : SameView s0 s)
    {v u : Vertex} (hv : 0 ≤ v) (hn : s0.text.length + 1 ≤ v + n) (hle : v ≤ s0.text.length) {l : List Edge} {b : Builder}
    (hb : b.links.map (·.edge) = l) (hok : BuilderOk s0 l b) (hc : TakesAll s0 (p s0) mask u l v) (hpos : l ≠ [] → 0 < v) :
    ∃ es v' x, TakesAll s0 (p s0) mask u es v' ∧ Ends s0 (p s0) mask v' x ∧
      match x with
      | some x => skipLoop p mask n s b v = some (.error x, queried s0 mask)
      | none => ∃ b', skipLoop p mask n s b v = some (.ok (b', v'), queried s0 mask) ∧
          b'.links.map (·.edge) = es ∧ BuilderOk s0 es b' := by
  induction n generalizing s v l b with
  | zero => omega
  | succ n ih =>
    unfold skipLoop
    have h1 : (outEdges s v mask).1 = (outEdges s0 v mask).1 := hv0.maskOuts v mask
    have h2 : (outEdges s v mask).2 = queried s0 mask := by rw [outEdges_snd, hs]
    have hqv := queried_view hi mask
    have hstepAll : ∀ best, Takes s0 (p s0) mask v best → ∃ es v' x, TakesAll s0 (p s0) mask u es v' ∧ Ends s0 (p s0) mask v' x ∧
        match x with
        | some x => skipLoop p mask n (queried s0 mask) (Builder.addEdge (queried s0 mask) b ⟨best, none⟩)
            ((queried s0 mask).tgt best) = some (.error x, queried s0 mask)
        | none => ∃ b', skipLoop p mask n (queried s0 mask) (Builder.addEdge (queried s0 mask) b ⟨best, none⟩)
            ((queried s0 mask).tgt best) = some (.ok (b', v'), queried s0 mask) ∧
            b'.links.map (·.edge) = es ∧ BuilderOk s0 es b' := by
      intro best ht
      have hall := ht.mem hi
      have hsrc := mem_allOut_src hall
      have hpres : Present s0 best := ⟨v, hall⟩
      have hspan := noLoose_span hi hl hpres
      have hstep := builder_step (s := s0) (u := ⟨best, none⟩) hb hok (by
        intro hne _; have := hpos hne
        show s0.src best ≠ 0
        omega)
      rw [hqv.tgt, queried_builder]
      exact ih (queried_twice s0 mask) hqv (by omega) (by omega) (by omega) hstep.1 hstep.2
        (hc.snoc ht) (fun _ => by omega)
    cases hq : (outEdges s v mask).1 with
    | cons e es =>
      rw [show outEdges s v mask = (e :: es, queried s0 mask) from Prod.ext hq h2]
      dsimp only
      generalize hbest : (e :: es).getLast (by simp) = best
      refine hstepAll best (.inl ?_)
      rw [← h1, hq, ← hbest]; exact List.getLast?_eq_some_getLast (by simp)
    | nil =>
      rw [show outEdges s v mask = ([], queried s0 mask) from Prod.ext hq h2]
      dsimp only
      rw [hqv.outs, hp]
      rw [h1] at hq
      cases ha : s0.allOutEdges v with
      | nil => exact ⟨l, v, none, hc, .stop hq ha, b, rfl, hb, hok⟩
      | cons a r =>
        dsimp only
        cases hsc : skipScan (p s0) a r with
        | error x =>
          obtain ⟨rfl, _⟩ := skipScan_error _ _ hsc
          exact ⟨l, v, some .noEdge, hc, .throw hq ha hsc, rfl⟩
        | ok best => exact hstepAll best (.inr ⟨hq, a, r, ha, hsc⟩)

end Verif.Lattice
