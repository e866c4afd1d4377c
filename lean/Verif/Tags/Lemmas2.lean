import Verif.Tags.Lemmas

/-! More helper lemmas: masks and specifications. -/
set_option linter.unusedVariables false
set_option linter.unusedSimpArgs false

namespace Verif.Tags
open Verif Spec

theorem createAll_spec {m m' : Manager} {cs : List (List Str)} {ts : List TagSet} (hm : Inv m)
    (h : createAll m cs = some (m', ts)) : Inv m' ∧ Grows m m' ∧
    (∀ t ∈ ts, ∃ c ∈ cs, ∀ j, t.getLsbD j = true ↔ ∃ n ∈ c, m'.names[j]? = some n) ∧
    (∀ c ∈ cs, ∃ t ∈ ts, (∀ j, t.getLsbD j = true ↔ ∃ n ∈ c, m'.names[j]? = some n)) ∧
    (∀ c ∈ cs, ∀ n ∈ c, ∃ i : Nat, m'.names[i]? = some n) := by
  induction cs generalizing m ts with
  | nil =>
    simp [createAll] at h; obtain ⟨rfl, rfl⟩ := h
    exact ⟨hm, grows_refl _, by simp, by simp, by simp⟩
  | cons c cs ih =>
    simp only [createAll] at h
    split at h
    · simp at h
    · rename_i m1 t h1
      split at h
      · simp at h
      · rename_i m2 ts' h2
        simp only [Option.some.injEq, Prod.mk.injEq] at h
        obtain ⟨rfl, rfl⟩ := h
        obtain ⟨i1, g1, b1, _, e1⟩ := create_spec hm h1
        obtain ⟨i2, g2, b2, b3, e2⟩ := ih i1 h2
        have hb : ∀ j, t.getLsbD j = true ↔ ∃ n ∈ c, m2.names[j]? = some n := by
          intro j
          rw [b1]
          constructor
          · rintro ⟨n, hn, hj⟩; exact ⟨n, hn, g2.get hj⟩
          · rintro ⟨n, hn, hj⟩
            obtain ⟨i, _, hi⟩ := e1 n hn
            have := nodup_get i2.1 (g2.get hi) hj
            subst this
            exact ⟨n, hn, hi⟩
        refine ⟨i2, g1.trans g2, ?_, ?_, ?_⟩
        · intro t' ht'
          simp only [List.mem_cons] at ht'
          rcases ht' with rfl | ht'
          · exact ⟨c, by simp, hb⟩
          · obtain ⟨c', hc', hh⟩ := b2 t' ht'
            exact ⟨c', by simp [hc'], hh⟩
        · intro c' hc'
          simp only [List.mem_cons] at hc'
          rcases hc' with rfl | hc'
          · exact ⟨t, by simp, hb⟩
          · obtain ⟨t', ht', hh⟩ := b3 c' hc'
            exact ⟨t', by simp [ht'], hh⟩
        · intro c' hc' n hn
          simp only [List.mem_cons] at hc'
          rcases hc' with rfl | hc'
          · obtain ⟨i, _, hi⟩ := e1 n hn
            exact ⟨i, g2.get hi⟩
          · exact e2 c' hc' n hn

theorem token_plain {n : Str} (h : PlainName n) (rest : Str)
    (hr : rest = [] ∨ ∃ b r, rest = b :: r ∧ (b = 44 ∨ b = 59)) : token (n ++ rest) = (n, rest) := by
  replace h := h.2
  induction n with
  | nil =>
    rcases hr with rfl | ⟨b, r, rfl, hb⟩
    · rfl
    · simp [token, hb]
  | cons b n ih =>
    have hb := h b (by simp)
    simp [token, hb, ih (fun c hc => h c (by simp [hc]))]

/-- End of a conjunction. -/
def EndOfConj (rest : Str) : Prop := rest = [] ∨ ∃ r, rest = 59 :: r

theorem conjRest_plain (ns : List Str) (h : ∀ n ∈ ns, PlainName n) (rest : Str)
    (hr : EndOfConj rest) :
    conjRest (ns.flatMap (fun n => 44 :: n) ++ rest) = (ns, rest) := by
  induction ns with
  | nil =>
    rcases hr with rfl | ⟨r, rfl⟩
    · simp [conjRest]
    · simp [conjRest]
  | cons n ns ih =>
    have hn := h n (by simp)
    have ht : token (n ++ (ns.flatMap (fun n => 44 :: n) ++ rest))
        = (n, ns.flatMap (fun n => 44 :: n) ++ rest) := by
      apply token_plain hn
      cases ns with
      | nil =>
        rcases hr with rfl | ⟨r, rfl⟩
        · left; rfl
        · right; exact ⟨59, r, rfl, Or.inr rfl⟩
      | cons n' ns => right; exact ⟨44, _, rfl, Or.inl rfl⟩
    simp only [List.flatMap_cons, List.cons_append, List.append_assoc]
    rw [conjRest.eq_def]
    simp only [ht]
    rw [if_pos ⟨trivial, hn.1⟩, ih (fun n hn => h n (by simp [hn]))]

theorem join_cons (sep : Byte) (s : Str) (ss : List Str) :
    join sep (s :: ss) = s ++ ss.flatMap (fun t => sep :: t) := by
  induction ss generalizing s with
  | nil => simp [join]
  | cons t ss ih => simp [join, ih]

theorem conjunction_plain {c : List Str} (hc : c ≠ []) (h : ∀ n ∈ c, PlainName n) (rest : Str)
    (hr : EndOfConj rest) : conjunction (join 44 c ++ rest) = some (c, rest) := by
  match c, hc with
  | n :: ns, _ =>
    have hn := h n (by simp)
    have ht : token (n ++ (ns.flatMap (fun n => 44 :: n) ++ rest))
        = (n, ns.flatMap (fun n => 44 :: n) ++ rest) := by
      apply token_plain hn
      cases ns with
      | nil =>
        rcases hr with rfl | ⟨r, rfl⟩
        · left; rfl
        · right; exact ⟨59, r, rfl, Or.inr rfl⟩
      | cons n' ns => right; exact ⟨44, _, rfl, Or.inl rfl⟩
    rw [join_cons, List.append_assoc]
    simp only [conjunction, ht]
    rw [if_neg hn.1, conjRest_plain ns (fun n hn => h n (by simp [hn])) rest hr]

theorem altRest_plain (cs : List (List Str)) (h : ∀ c ∈ cs, c ≠ [] ∧ ∀ n ∈ c, PlainName n) :
    altRest ((cs.map (join 44)).flatMap (fun t => 59 :: t)) = cs := by
  induction cs with
  | nil => simp [altRest]
  | cons c cs ih =>
    have hc := h c (by simp)
    have he : EndOfConj ((cs.map (join 44)).flatMap (fun t => 59 :: t)) := by
      cases cs with
      | nil => left; rfl
      | cons c' cs => right; exact ⟨_, rfl⟩
    have hconj := conjunction_plain hc.1 hc.2 _ he
    simp only [List.map_cons, List.flatMap_cons, List.cons_append]
    rw [altRest.eq_def]
    simp only [if_true]
    split
    · rename_i hn; rw [hconj] at hn; simp at hn
    · rename_i c' r hn
      rw [hconj] at hn; simp at hn; obtain ⟨rfl, rfl⟩ := hn
      rw [ih (fun c hc => h c (by simp [hc]))]

theorem splitMask_plain {cs : List (List Str)} (hcs : cs ≠ [])
    (h : ∀ c ∈ cs, c ≠ [] ∧ ∀ n ∈ c, PlainName n) :
    splitMaskSpecification (join 59 (cs.map (join 44))) = cs := by
  match cs, hcs with
  | c :: cs, _ =>
    have hc := h c (by simp)
    have he : EndOfConj ((cs.map (join 44)).flatMap (fun t => 59 :: t)) := by
      cases cs with
      | nil => left; rfl
      | cons c' cs => right; exact ⟨_, rfl⟩
    rw [List.map_cons, join_cons]
    simp only [splitMaskSpecification, conjunction_plain hc.1 hc.2 _ he]
    rw [altRest_plain cs (fun c hc => h c (by simp [hc]))]

theorem splitCollection_ne (s : Str) : splitCollectionSpecification s ≠ [] := by
  cases s with
  | nil => simp [splitCollectionSpecification]
  | cons b s =>
    simp only [splitCollectionSpecification]
    split
    · simp
    · split <;> simp

theorem splitCollection_plain (ns : List Str) (hns : ns ≠ []) (h : ∀ n ∈ ns, ∀ b ∈ n, b ≠ 44) :
    splitCollectionSpecification (join 44 ns) = ns := by
  have key : ∀ (n : Str) (rest : Str) (fs : List Str), (∀ b ∈ n, b ≠ 44) →
      (∃ f fs', splitCollectionSpecification rest = f :: fs' ∧ fs = fs' ∧ f = []) →
      splitCollectionSpecification (n ++ rest) = n :: fs := by
    intro n rest fs hn ⟨f, fs', h1, h2, h3⟩
    subst h2 h3
    induction n with
    | nil => exact h1
    | cons b n ih =>
      have := ih (fun c hc => hn c (by simp [hc]))
      simp [splitCollectionSpecification, hn b (by simp), this]
  have key2 : ∀ (ns : List Str), (∀ n ∈ ns, ∀ b ∈ n, b ≠ 44) →
      splitCollectionSpecification (ns.flatMap (fun t => 44 :: t)) = [] :: ns := by
    intro ns h
    induction ns with
    | nil => rfl
    | cons n ns ih =>
      simp only [List.flatMap_cons, List.cons_append, splitCollectionSpecification, B.comma, if_true]
      rw [key n _ ns (h n (by simp)) ⟨[], ns, ih (fun n hn => h n (by simp [hn])), rfl, rfl⟩]
  match ns, hns with
  | n :: ns, _ =>
    rw [join_cons]
    exact key n _ ns (h n (by simp)) ⟨[], ns, key2 ns (fun n hn => h n (by simp [hn])), rfl, rfl⟩

theorem nodup_length_le {l U : List Str} (h : l.Nodup) (hs : ∀ n ∈ l, n ∈ U) :
    l.length ≤ U.length := by
  induction l generalizing U with
  | nil => simp
  | cons a l ih =>
    rw [List.nodup_cons] at h
    have ha := hs a (by simp)
    have := ih (U := U.erase a) h.2 (fun n hn => by
      have hne : n ≠ a := by rintro rfl; exact h.1 hn
      exact (List.mem_erase_of_ne hne).2 (hs n (by simp [hn])))
    rw [List.length_erase_of_mem ha] at this
    have hp : 0 < U.length := List.length_pos_of_mem ha
    simp; omega

/-- Success of tag creation while at most 64 names are in use. -/
theorem createLoop_isSome (m : Manager) (r : TagSet) (names U : List Str) (hm : Inv m)
    (h1 : ∀ n ∈ m.names, n ∈ U) (h2 : ∀ n ∈ names, n ∈ U) (hU : U.length ≤ 64) :
    (createLoop m r names).isSome := by
  induction names generalizing m r with
  | nil => simp [createLoop]
  | cons name names ih =>
    simp only [createLoop]
    have hinv := insert_inv hm name
    have hsub : ∀ n ∈ (m.insert name).names, n ∈ U := by
      intro n hn
      unfold Manager.insert at hn
      split at hn
      · exact h1 n hn
      · simp at hn
        rcases hn with hn | rfl
        · exact h1 n hn
        · exact h2 n (by simp)
    have hlen : (m.insert name).names.length ≤ U.length :=
      nodup_length_le hinv.1 hsub
    have hidx := List.idxOf_lt_length_of_mem (insert_names m name)
    cases hc : createOne m r name with
    | none =>
      simp only [createOne] at hc
      split at hc
      · omega
      · simp at hc
    | some p =>
      obtain ⟨m', r'⟩ := p
      dsimp only
      apply ih
      · exact (createOne_spec hm hc).1
      · intro n hn
        simp only [createOne] at hc
        split at hc
        · simp at hc
        · simp at hc
          obtain ⟨rfl, rfl⟩ := hc
          exact hsub n hn
      · intro n hn; exact h2 n (by simp [hn])

end Verif.Tags
