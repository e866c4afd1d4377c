import Verif.Dag.ProductLemmas
import Mathlib.Data.List.Induction

/-! # Hashing all words of an automaton -/

namespace Verif.Dag

theorem joint_snoc {next : Nat × Nat → List PairArc} {p t : Nat × Nat} {u : List Nat} {x : PairArc}
    (h : Joint next p u t) (hx : x ∈ next t) : Joint next p (u ++ [x.a]) x.t := by
  induction h with
  | nil => exact .cons hx (.nil _)
  | cons hy _ ih => exact .cons hy (ih hx)

theorem joint_split {next : Nat × Nat → List PairArc} {p t : Nat × Nat} {u : List Nat} {a : Nat}
    (h : Joint next p (u ++ [a]) t) :
    ∃ (q : Nat × Nat) (x : PairArc), Joint next p u q ∧ x ∈ next q ∧ x.a = a ∧ x.t = t := by
  induction u generalizing p with
  | nil =>
    cases h with
    | @cons _ _ x _ hx hr =>
      cases hr
      exact ⟨p, x, .nil p, hx, rfl, rfl⟩
  | cons b u ih =>
    cases h with
    | @cons _ _ y _ hy hr =>
      obtain ⟨q, x, h1, h2, h3, h4⟩ := ih hr
      exact ⟨q, x, .cons hy h1, h2, h3, h4⟩

theorem joint_unique {d o : Dag} (hd : StrictRows d) (ho : StrictRows o) {p s t : Nat × Nat}
    {w : List Nat} (h : Joint (common d o) p w s) (h' : Joint (common d o) p w t) : s = t := by
  rw [joint_common hd ho] at h h'
  have e1 := path_unique (fun p => (hd p).imp fun h => Nat.ne_of_lt h) h.1 h'.1
  have e2 := path_unique (fun p => (ho p).imp fun h => Nat.ne_of_lt h) h.2 h'.2
  exact Prod.ext e1 e2

/-- The index that belongs to a word that leads to the state. -/
inductive Index (d : Dag) : List Nat → Nat → Nat → Prop
  | nil : Index d [] 0 0
  | snoc {u : List Nat} {p n a q w : Nat} (h : Index d u p n) (hx : (⟨a, q, w⟩ : Arc) ∈ d.row p) :
      Index d (u ++ [a]) q (n + w + if d.isEnd q then 1 else 0)

theorem Index.hashFrom {d : Dag} (hd : StrictRows d) {u : List Nat} {p n : Nat} (h : Index d u p n)
    (v : List Nat) : d.hashFrom 0 0 (u ++ v) = d.hashFrom p n v := by
  induction h generalizing v with
  | nil => rfl
  | @snoc u p n a q w _ hx ih =>
    rw [List.append_assoc, ih]
    simp only [List.singleton_append, Dag.hashFrom]
    cases hs : search (d.row p) a with
    | none =>
      exact absurd rfl (search_none ((hd p).imp fun h => Nat.le_of_lt h) hs _ hx)
    | some y =>
      obtain ⟨h1, h2⟩ := search_some hs
      have := unique_arc ((hd p).imp fun h => Nat.ne_of_lt h) h1 hx h2
      subst this
      rfl

theorem Index.hash {d : Dag} (hd : StrictRows d) {u : List Nat} {p n : Nat} (h : Index d u p n)
    (he : p ∈ d.ends) : d.hash u = some n := by
  have := h.hashFrom hd []
  rw [List.append_nil] at this
  rw [Dag.hash, this, Dag.hashFrom, if_pos (isEnd_iff.2 he)]

/-- The words of a pair. -/
def Hashing.at (b : Hashing) (t : Nat × Nat) : List (List Nat × Nat) :=
  b.sl[b.mapper.idxOf t]?.getD []

/-- A word with one more symbol. -/
def ext (d : Dag) (x : PairArc) (wi : List Nat × Nat) : List Nat × Nat :=
  (wi.1 ++ [x.a], wi.2 + x.w + if d.isEnd x.t.1 then 1 else 0)

/-- What is known of the lists. -/
structure Shape (b : Hashing) : Prop where
  nodup : b.mapper.Nodup
  len : b.sl.length = b.mapper.length
  first : b.mapper[0]? = some (0, 0)
  queued : ∀ p ∈ b.queue, p ∈ b.mapper
  once : b.queue.Nodup

theorem idxOf_inj {l : List (Nat × Nat)} {p q : Nat × Nat} (hp : p ∈ l)
    (h : l.idxOf p = l.idxOf q) : p = q := by
  have h1 := idxOf_pair hp
  by_cases hq : q ∈ l
  · have h2 := idxOf_pair hq
    rw [h, h2] at h1
    cases h1; rfl
  · have := List.idxOf_lt_length_of_mem hp
    rw [h, List.idxOf_eq_length hq] at this
    omega

theorem addArc_spec (d : Dag) {b : Hashing} (h : Shape b) {p : Nat × Nat} (hp : p ∈ b.mapper)
    (x : PairArc) :
    Shape (b.addArc d (b.mapper.idxOf p) x) ∧
      (b.addArc d (b.mapper.idxOf p) x).ends = b.ends ∧
      (∀ t, (b.addArc d (b.mapper.idxOf p) x).at t =
        b.at t ++ if t = x.t then (b.at p).map (ext d x) else []) ∧
      ∃ new, (b.addArc d (b.mapper.idxOf p) x).mapper = b.mapper ++ new ∧
        (b.addArc d (b.mapper.idxOf p) x).queue = b.queue ++ new ∧
        (∀ t ∈ new, t ∉ b.mapper ∧ t = x.t) ∧ x.t ∈ b.mapper ++ new := by
  have hlt := List.idxOf_lt_length_of_mem hp
  have hx := idxOf?_pair (l := b.mapper) (S := x.t)
  unfold Hashing.addArc
  cases hi : b.mapper.idxOf? x.t with
  | some i =>
    rw [hi] at hx
    simp only at hx ⊢
    have hm := List.mem_of_getElem? hx
    refine ⟨⟨h.nodup, by simpa using h.len, h.first, h.queued, h.once⟩, trivial, ?_, [], by simp, by simp,
      by simp, by simpa using hm⟩
    intro t
    have hat : b.sl[b.mapper.idxOf p]?.getD [] = b.at p := rfl
    generalize b.at p = S at hat ⊢
    unfold Hashing.at
    simp only [List.getElem?_modify, hat]
    by_cases c : t = x.t
    · subst c
      have hlt' := List.idxOf_lt_length_of_mem hm
      rw [List.getElem?_eq_getElem (by rw [h.len]; exact hlt')]
      simp only [if_true]
      rfl
    · have hne : b.mapper.idxOf x.t ≠ b.mapper.idxOf t := fun e => c (idxOf_inj hm e).symm
      simp only [hne, c, if_false, List.append_nil]
      cases b.sl[b.mapper.idxOf t]? <;> rfl
  | none =>
    rw [hi] at hx
    simp only at hx ⊢
    have hidx : (b.mapper ++ [x.t]).idxOf x.t = b.mapper.length := by
      rw [List.idxOf_append_of_notMem hx]; simp
    refine ⟨⟨?_, by simp [h.len], ?_, ?_, ?_⟩, trivial, ?_, [x.t], rfl, rfl, by simpa using hx, by simp⟩
    · simp only [List.nodup_append, h.nodup, List.nodup_singleton, List.mem_singleton, true_and]
      intro a ha c hc
      subst hc
      exact fun e => hx (e ▸ ha)
    · rw [List.getElem?_append_left (List.getElem?_eq_some_iff.1 h.first).1]; exact h.first
    · intro q hq
      rcases List.mem_append.1 hq with hq | hq
      · simp [h.queued q hq]
      · simp at hq; simp [hq]
    · simp only [List.nodup_append, h.once, List.nodup_singleton, List.mem_singleton, true_and]
      intro a ha c hc
      subst hc
      exact fun e => hx (e ▸ h.queued a ha)
    · intro t
      have hat : (b.sl ++ [[]])[b.mapper.idxOf p]?.getD [] = b.at p := by
        rw [List.getElem?_append_left (by rw [h.len]; exact hlt)]; rfl
      generalize b.at p = S at hat ⊢
      unfold Hashing.at
      simp only [List.getElem?_modify, hidx, hat]
      by_cases c : t = x.t
      · subst c
        rw [hidx, List.idxOf_eq_length hx]
        simp only [if_true]
        rw [List.getElem?_append_right (Nat.le_of_eq h.len), h.len, Nat.sub_self]
        rw [List.getElem?_eq_none (Nat.le_of_eq h.len) (l := b.sl)]
        rfl
      · simp only [c, if_false, List.append_nil]
        by_cases ht : t ∈ b.mapper
        · have hlt' := List.idxOf_lt_length_of_mem ht
          rw [List.idxOf_append_of_mem ht]
          have hne : b.mapper.length ≠ b.mapper.idxOf t := by omega
          simp only [hne, if_false]
          rw [List.getElem?_append_left (by rw [h.len]; exact hlt')]
          cases b.sl[b.mapper.idxOf t]? <;> rfl
        · have e1 : (b.mapper ++ [x.t]).idxOf t = b.mapper.length + 1 := by
            rw [List.idxOf_eq_length (by simp [ht, c])]; simp
          rw [e1, List.idxOf_eq_length ht]
          rw [List.getElem?_eq_none (by simp [h.len]), List.getElem?_eq_none (Nat.le_of_eq h.len)]
          simp

theorem addArcs_spec (d : Dag) {p : Nat × Nat} (l : List PairArc) {b : Hashing} (h : Shape b)
    (hp : p ∈ b.mapper) (hl : ∀ x ∈ l, x.t ≠ p) (s : Nat) (hs : s = b.mapper.idxOf p) :
    Shape (l.foldl (Hashing.addArc d s) b) ∧
      (l.foldl (Hashing.addArc d s) b).ends = b.ends ∧
      (∀ t, (l.foldl (Hashing.addArc d s) b).at t =
        b.at t ++ (l.filter fun x => decide (x.t = t)).flatMap fun x => (b.at p).map (ext d x)) ∧
      ∃ new, (l.foldl (Hashing.addArc d s) b).mapper = b.mapper ++ new ∧
        (l.foldl (Hashing.addArc d s) b).queue = b.queue ++ new ∧
        (∀ t ∈ new, t ∉ b.mapper ∧ ∃ x ∈ l, x.t = t) ∧ ∀ x ∈ l, x.t ∈ b.mapper ++ new := by
  induction l generalizing b with
  | nil => exact ⟨h, rfl, by simp, [], by simp, by simp, by simp, by simp⟩
  | cons x l ih =>
    subst hs
    obtain ⟨h1, h2, h3, new, h4, h5, h6, h7⟩ := addArc_spec d h hp x
    rw [List.foldl_cons]
    have hp' : p ∈ (b.addArc d (b.mapper.idxOf p) x).mapper := by rw [h4]; simp [hp]
    obtain ⟨g1, g2, g3, new', g4, g5, g6, g7⟩ := ih h1 hp' (fun y hy => hl y (by simp [hy]))
      (by rw [h4, List.idxOf_append_of_mem hp])
    refine ⟨g1, by rw [g2, h2], fun t => ?_, new ++ new', by rw [g4, h4, List.append_assoc],
      by rw [g5, h5, List.append_assoc], fun t ht => ?_, fun y hy => ?_⟩
    · rw [g3, h3]
      have ep : (b.addArc d (b.mapper.idxOf p) x).at p = b.at p := by
        rw [h3, if_neg (fun e => hl x (by simp) e.symm), List.append_nil]
      rw [ep, List.filter_cons]
      by_cases c : t = x.t
      · subst c; simp
      · simp [c, Ne.symm c]
    · rcases List.mem_append.1 ht with ht | ht
      · exact ⟨(h6 t ht).1, x, by simp, (h6 t ht).2.symm⟩
      · obtain ⟨k1, y, k2, k3⟩ := g6 t ht
        rw [h4, List.mem_append, not_or] at k1
        exact ⟨k1.1, y, by simp [k2], k3⟩
    · rcases List.mem_cons.1 hy with rfl | hy
      · rw [← List.append_assoc]; exact List.mem_append_left _ h7
      · have := g7 y hy
        rw [h4, List.append_assoc] at this
        exact this

/-- What is known between the rounds. -/
structure HRound (d o : Dag) (b : Hashing) : Prop where
  shape : Shape b
  sound : ∀ t, ∀ wi ∈ b.at t, Joint (common d o) (0, 0) wi.1 t ∧ Index d wi.1 t.1 wi.2
  origin : ∀ t, ∀ wi ∈ b.at t, wi.1 = [] ∨ ∃ u a p, wi.1 = u ++ [a] ∧
    Joint (common d o) (0, 0) u p ∧ p ∈ b.mapper ∧ p ∉ b.queue
  distinct : ∀ t, ((b.at t).map Prod.fst).Nodup
  root : ([], 0) ∈ b.at (0, 0)
  ends : ∀ i, i ∈ b.ends ↔ ∃ p, b.mapper[i]? = some p ∧ p ∉ b.queue ∧ p.1 ∈ d.ends ∧ p.2 ∈ o.ends
  closed : ∀ p ∈ b.mapper, p ∉ b.queue → ∀ x ∈ common d o p, x.t ∈ b.mapper

/-- What is known more if each pair is reached by words of one length only. -/
structure Full (d o : Dag) (lev : Nat × Nat → Nat) (b : Hashing) : Prop where
  level : b.queue.Pairwise fun p q => lev p ≤ lev q
  spread : ∀ p q, b.queue.head? = some p → q ∈ b.queue → lev q ≤ lev p + 1
  reached : ∀ p ∈ b.mapper, ∃ u, Joint (common d o) (0, 0) u p
  full : ∀ p ∈ b.mapper, p ∉ b.queue → ∀ u, Joint (common d o) (0, 0) u p →
    u ∈ (b.at p).map Prod.fst ∧ ∀ x ∈ common d o p, u ++ [x.a] ∈ (b.at x.t).map Prod.fst

/-- One round. -/
theorem HRound.step {d o : Dag} (hd : StrictRows d) (ho : StrictRows o)
    (hself : ∀ p, ∀ x ∈ common d o p, x.t ≠ p) {mapper queue : List (Nat × Nat)} {p : Nat × Nat}
    {sl : List (List (List Nat × Nat))} {ends : List Nat}
    (h : HRound d o ⟨mapper, p :: queue, sl, ends⟩) :
    ∃ b' new, b' = (common d o p).foldl (Hashing.addArc d (mapper.idxOf p))
        ⟨mapper, queue, sl, if d.isEnd p.1 && o.isEnd p.2 then ends ++ [mapper.idxOf p] else ends⟩ ∧
      HRound d o b' ∧ b'.mapper = mapper ++ new ∧ b'.queue = queue ++ new ∧
      (∀ t ∈ new, t ∉ mapper ∧ ∃ x ∈ common d o p, x.t = t) ∧
      ∀ lev, (∀ u t, Joint (common d o) (0, 0) u t → lev t = u.length) →
        Full d o lev ⟨mapper, p :: queue, sl, ends⟩ → Full d o lev b' := by
  obtain ⟨hshape, hsound, horig, hdist, hroot, hends, hclosed⟩ := h
  have hp : p ∈ mapper := hshape.queued p (by simp)
  have honce := List.nodup_cons.1 hshape.once
  generalize he : (if d.isEnd p.1 && o.isEnd p.2 then ends ++ [mapper.idxOf p] else ends) = ends'
  have hs1 : Shape ⟨mapper, queue, sl, ends'⟩ :=
    ⟨hshape.nodup, hshape.len, hshape.first, fun q hq => hshape.queued q (by simp [hq]), honce.2⟩
  obtain ⟨g1, g2, g3, new, g4, g5, g6, g7⟩ := addArcs_spec d (common d o p) hs1 hp
    (fun x hx => hself p x hx) (mapper.idxOf p) rfl
  generalize hb : (common d o p).foldl (Hashing.addArc d (mapper.idxOf p))
    ⟨mapper, queue, sl, ends'⟩ = b' at g1 g2 g3 g4 g5
  have at0 : ∀ t, (⟨mapper, queue, sl, ends'⟩ : Hashing).at t =
      (⟨mapper, p :: queue, sl, ends⟩ : Hashing).at t := fun t => rfl
  simp only at g2 g4 g5 g6 g7
  generalize hb0 : (⟨mapper, p :: queue, sl, ends⟩ : Hashing) = b0 at *
  have e1 : b0.mapper = mapper := by rw [← hb0]
  have e2 : b0.queue = p :: queue := by rw [← hb0]
  have e3 : b0.ends = ends := by rw [← hb0]
  rw [e1] at hclosed
  rw [e2] at hclosed
  rw [e1, e3] at hends
  rw [e2] at hends
  simp only [e1, e2] at horig
  simp only [at0] at g3
  have hatp : b'.at p = b0.at p := by
    rw [g3, List.filter_eq_nil_iff.2]
    · simp
    · intro x hx; simpa using hself p x hx
  have mem_at : ∀ t wi, wi ∈ b'.at t ↔ wi ∈ b0.at t ∨
      ∃ x ∈ common d o p, x.t = t ∧ ∃ v ∈ b0.at p, ext d x v = wi := by
    intro t wi
    rw [g3, List.mem_append, List.mem_flatMap]
    simp only [List.mem_filter, decide_eq_true_eq, List.mem_map, and_assoc]
  have hpnew : p ∉ new := fun hn => (g6 p hn).1 hp
  have gone : ∀ q, q ∈ b'.mapper → q ∉ b'.queue → q = p ∨ (q ∈ mapper ∧ q ∉ p :: queue) := by
    intro q h1 h2
    rw [g4, List.mem_append] at h1
    rw [g5, List.mem_append, not_or] at h2
    rcases h1 with h1 | h1
    · by_cases c : q = p
      · exact .inl c
      · exact .inr ⟨h1, by simp [c, h2.1]⟩
    · exact absurd h1 h2.2
  have gone' : ∀ q, q = p ∨ (q ∈ mapper ∧ q ∉ p :: queue) → q ∈ b'.mapper ∧ q ∉ b'.queue := by
    rintro q (rfl | ⟨h1, h2⟩)
    · rw [g4, g5]
      exact ⟨by simp [hp], by simp [honce.1, hpnew]⟩
    · rw [g4, g5]
      simp only [List.mem_cons, not_or] at h2
      refine ⟨by simp [h1], ?_⟩
      rw [List.mem_append, not_or]
      exact ⟨h2.2, fun hn => (g6 q hn).1 h1⟩
  refine ⟨b', new, rfl, ⟨g1, ?_, ?_, ?_, ?_, ?_, ?_⟩, g4, g5, g6, ?_⟩
  · intro t wi hwi
    rcases (mem_at t wi).1 hwi with h1 | ⟨x, hx, rfl, v, hv, rfl⟩
    · exact hsound t wi h1
    · obtain ⟨k1, k2⟩ := hsound p v hv
      exact ⟨joint_snoc k1 hx, .snoc k2 (((common_spec hd ho p).1 x).1 hx).1⟩
  · intro t wi hwi
    rcases (mem_at t wi).1 hwi with h1 | ⟨x, hx, rfl, v, hv, rfl⟩
    · rcases horig t wi h1 with k | ⟨u, a, q, k1, k2, k3, k4⟩
      · exact .inl k
      · obtain ⟨m1, m2⟩ := gone' q (.inr ⟨k3, k4⟩)
        exact .inr ⟨u, a, q, k1, k2, m1, m2⟩
    · obtain ⟨m1, m2⟩ := gone' p (.inl rfl)
      exact .inr ⟨v.1, x.a, p, rfl, (hsound p v hv).1, m1, m2⟩
  · intro t
    rw [g3, List.map_append, List.nodup_append]
    refine ⟨hdist t, ?_, ?_⟩
    · have hsym := (common_spec hd ho p).2
      have hn := hdist p
      generalize common d o p = l at hsym
      induction l with
      | nil => simp
      | cons x l ih =>
        rw [List.pairwise_cons] at hsym
        rw [List.filter_cons]
        split
        · rw [List.flatMap_cons, List.map_append, List.nodup_append]
          refine ⟨?_, ih hsym.2, ?_⟩
          · rw [List.map_map]
            have : (Prod.fst ∘ ext d x) = (fun u => u ++ [x.a]) ∘ Prod.fst := rfl
            rw [this, ← List.map_map]
            exact hn.map fun u v huv => by simpa using huv
          · intro u hu v hv huv
            subst huv
            simp only [List.mem_map, List.mem_flatMap, List.mem_filter] at hu hv
            obtain ⟨_, ⟨v1, _, rfl⟩, rfl⟩ := hu
            obtain ⟨_, ⟨y, ⟨hy, _⟩, v2, _, rfl⟩, he⟩ := hv
            simp only [ext] at he
            have := (List.append_inj' he rfl).2
            simp only [List.cons.injEq, and_true] at this
            have := hsym.1 y hy
            omega
        · exact ih hsym.2
    · intro u hu v hv huv
      subst huv
      simp only [List.mem_map, List.mem_flatMap, List.mem_filter] at hu hv
      obtain ⟨wi, hwi, rfl⟩ := hu
      obtain ⟨_, ⟨y, ⟨hy, _⟩, v2, hv2, rfl⟩, he⟩ := hv
      simp only [ext] at he
      rcases horig t wi hwi with k | ⟨u, a, q, k1, k2, k3, k4⟩
      · rw [k] at he; simp at he
      · rw [k1] at he
        have := (List.append_inj' he rfl).1
        rw [← this] at k2
        have := joint_unique hd ho k2 (hsound p v2 hv2).1
        subst this
        exact k4 (by simp)
  · exact (mem_at _ _).2 (.inl hroot)
  · intro i
    rw [g2, ← he]
    have main : i ∈ (if d.isEnd p.1 && o.isEnd p.2 then ends ++ [mapper.idxOf p] else ends) ↔
        i ∈ ends ∨ (i = mapper.idxOf p ∧ p.1 ∈ d.ends ∧ p.2 ∈ o.ends) := by
      by_cases c : (d.isEnd p.1 && o.isEnd p.2) = true
      · rw [if_pos c, List.mem_append, List.mem_singleton]
        rw [Bool.and_eq_true, isEnd_iff, isEnd_iff] at c
        simp [c]
      · rw [if_neg c]
        rw [Bool.and_eq_true, isEnd_iff, isEnd_iff] at c
        simp only [c, and_false, or_false]
    rw [main, hends]
    have keep : ∀ {q : Nat × Nat}, mapper[i]? = some q → b'.mapper[i]? = some q := by
      intro q hq
      rw [g4, List.getElem?_append_left (List.getElem?_eq_some_iff.1 hq).1]; exact hq
    have back : ∀ {q : Nat × Nat}, q ∈ mapper → b'.mapper[i]? = some q → mapper[i]? = some q := by
      intro q hm hq
      obtain ⟨j, hj⟩ := List.mem_iff_getElem?.1 hm
      have hj' : b'.mapper[j]? = some q := by
        rw [g4, List.getElem?_append_left (List.getElem?_eq_some_iff.1 hj).1]; exact hj
      rw [nodup_getElem? g1.nodup hq hj']
      exact hj
    constructor
    · rintro (⟨q, k1, k2, k3⟩ | ⟨rfl, k3⟩)
      · exact ⟨q, keep k1, (gone' q (.inr ⟨List.mem_of_getElem? k1, k2⟩)).2, k3⟩
      · exact ⟨p, keep (idxOf_pair hp), (gone' p (.inl rfl)).2, k3⟩
    · rintro ⟨q, k1, k2, k3⟩
      rcases gone q (List.mem_of_getElem? k1) k2 with rfl | ⟨m1, m2⟩
      · exact .inr ⟨nodup_getElem? hs1.nodup (back hp k1) (idxOf_pair hp), k3⟩
      · exact .inl ⟨q, back m1 k1, m2, k3⟩
  · intro q h1 h2 x hx
    rcases gone q h1 h2 with rfl | ⟨m1, m2⟩
    · rw [g4]; exact g7 x hx
    · rw [g4]; exact List.mem_append_left _ (hclosed q m1 m2 x hx)
  · intro lev hlev hf
    obtain ⟨f1, f2, f3, f4⟩ := hf
    rw [e2] at f1 f2
    simp only [e1, e2] at f3 f4
    rw [List.pairwise_cons] at f1
    have f2' : ∀ q, q ∈ p :: queue → lev q ≤ lev p + 1 := fun q hq => f2 p q rfl hq
    have reachp := f3 p hp
    have levnew : ∀ t ∈ new, lev t = lev p + 1 := by
      intro t ht
      obtain ⟨_, x, hx, rfl⟩ := g6 t ht
      obtain ⟨u, hu⟩ := reachp
      rw [hlev _ _ hu, hlev _ _ (joint_snoc hu hx)]
      simp
    have low : ∀ v q, Joint (common d o) (0, 0) v q → v.length < lev p →
        q ∈ mapper ∧ q ∉ p :: queue := by
      intro v
      induction v using List.reverseRecOn with
      | nil =>
        intro q hq hl
        cases hq
        have hm := List.mem_of_getElem? hshape.first
        rw [e1] at hm
        refine ⟨hm, fun hq => ?_⟩
        have h0 := hlev _ _ (Joint.nil (next := common d o) (0, 0))
        rcases List.mem_cons.1 hq with e | hq
        · rw [← e, h0] at hl; simp at hl
        · have := f1.1 _ hq
          rw [h0] at this
          simp at this hl; omega
      | append_singleton v a ih =>
        intro q hq hl
        obtain ⟨q', x, k1, k2, k3, k4⟩ := joint_split hq
        simp only [List.length_append, List.length_singleton] at hl
        obtain ⟨m1, m2⟩ := ih q' k1 (by omega)
        subst k4
        refine ⟨hclosed q' m1 m2 x k2, fun hm => ?_⟩
        have hq' := hlev _ _ hq
        simp only [List.length_append, List.length_singleton] at hq'
        rcases List.mem_cons.1 hm with e | hm
        · rw [e] at hq'; omega
        · have := f1.1 _ hm; omega
    have fullp : ∀ u, Joint (common d o) (0, 0) u p → u ∈ (b0.at p).map Prod.fst := by
      intro u hu
      rcases List.eq_nil_or_concat u with rfl | ⟨v, a, rfl⟩
      · have : p = (0, 0) := (joint_unique hd ho hu (.nil _))
        rw [this]
        exact List.mem_map.2 ⟨_, hroot, rfl⟩
      · rw [List.concat_eq_append] at hu ⊢
        obtain ⟨q, x, k1, k2, k3, k4⟩ := joint_split hu
        have hl := hlev _ _ hu
        simp only [List.length_append, List.length_singleton] at hl
        obtain ⟨m1, m2⟩ := low v q k1 (by omega)
        have := (f4 q m1 m2 v k1).2 x k2
        rw [k3, k4] at this
        exact this
    have grow : ∀ t u, u ∈ (b0.at t).map Prod.fst → u ∈ (b'.at t).map Prod.fst := by
      intro t u hu
      obtain ⟨wi, h1, h2⟩ := List.mem_map.1 hu
      exact List.mem_map.2 ⟨wi, (mem_at t wi).2 (.inl h1), h2⟩
    refine ⟨?_, ?_, ?_, ?_⟩
    · rw [g5, List.pairwise_append]
      refine ⟨f1.2, ?_, ?_⟩
      · rw [List.pairwise_iff_getElem]
        intro i j hi hj _
        rw [levnew _ (List.getElem_mem hi), levnew _ (List.getElem_mem hj)]
        exact Nat.le_refl _
      · intro q hq t ht
        rw [levnew t ht]
        exact f2' q (by simp [hq])
    · intro q t hq ht
      rw [g5] at hq ht
      have hmq := List.mem_of_mem_head? hq
      have lo : lev p ≤ lev q := by
        rcases List.mem_append.1 hmq with hm | hm
        · exact f1.1 q hm
        · rw [levnew q hm]; omega
      have hi : lev t ≤ lev p + 1 := by
        rcases List.mem_append.1 ht with hm | hm
        · exact f2' t (by simp [hm])
        · rw [levnew t hm]; exact Nat.le_refl _
      omega
    · intro q hq
      rw [g4, List.mem_append] at hq
      rcases hq with hq | hq
      · exact f3 q hq
      · obtain ⟨_, x, hx, rfl⟩ := g6 q hq
        obtain ⟨u, hu⟩ := reachp
        exact ⟨_, joint_snoc hu hx⟩
    · intro q h1 h2 u hu
      rcases gone q h1 h2 with rfl | ⟨m1, m2⟩
      · have hfp := fullp u hu
        refine ⟨grow _ _ hfp, fun x hx => ?_⟩
        obtain ⟨wi, k1, rfl⟩ := List.mem_map.1 hfp
        exact List.mem_map.2 ⟨ext d x wi, (mem_at _ _).2 (.inr ⟨x, hx, rfl, wi, k1, rfl⟩), rfl⟩
      · obtain ⟨k1, k2⟩ := f4 q m1 m2 u hu
        exact ⟨grow _ _ k1, fun x hx => grow _ _ (k2 x hx)⟩

theorem hashPairs_spec {d o : Dag} (hd : StrictRows d) (ho : StrictRows o)
    (hself : ∀ p, ∀ x ∈ common d o p, x.t ≠ p) (U : List (Nat × Nat))
    (hU : ∀ p ∈ U, ∀ x ∈ common d o p, x.t ∈ U) (fuel : Nat) (b : Hashing) (h : HRound d o b)
    (hm : ∀ p ∈ b.mapper, p ∈ U) (hf : b.queue.length + (U.length - b.mapper.length) ≤ fuel) :
    ∃ e, hashPairs d o fuel b = some e ∧ e.queue = [] ∧ HRound d o e ∧
      ∀ lev, (∀ u t, Joint (common d o) (0, 0) u t → lev t = u.length) → Full d o lev b →
        Full d o lev e := by
  induction fuel generalizing b with
  | zero =>
    obtain ⟨mapper, queue, sl, ends⟩ := b
    cases queue with
    | nil => exact ⟨_, by rw [hashPairs], rfl, h, fun _ _ h => h⟩
    | cons p q => simp at hf
  | succ fuel ih =>
    obtain ⟨mapper, queue, sl, ends⟩ := b
    cases queue with
    | nil => exact ⟨_, by rw [hashPairs], rfl, h, fun _ _ h => h⟩
    | cons p queue =>
      rw [hashPairs]
      obtain ⟨b', new, hb', h1, h2, h3, h4, h5⟩ := h.step hd ho hself
      have hmU : ∀ q ∈ b'.mapper, q ∈ U := by
        rw [h2]
        intro q hq
        rcases List.mem_append.1 hq with hq | hq
        · exact hm q hq
        · obtain ⟨_, x, hx, rfl⟩ := h4 q hq
          exact hU p (hm p (h.shape.queued p (by simp))) x hx
      have hb := (h1.shape.nodup.subperm hmU).length_le
      obtain ⟨e, k1, k2, k3, k4⟩ := ih b' h1 hmU (by
        rw [h2] at hb
        rw [h2, h3]
        simp only [List.length_append, List.length_cons] at hf hb ⊢
        omega)
      rw [← hb']
      exact ⟨e, k1, k2, k3, fun lev hl hfull => k4 lev hl (h5 lev hl hfull)⟩

theorem HRound.start (d o : Dag) :
    HRound d o { mapper := [(0, 0)], queue := [(0, 0)], sl := [[([], 0)]], ends := [] } := by
  have hat : ∀ t, (⟨[(0, 0)], [(0, 0)], [[([], 0)]], []⟩ : Hashing).at t =
      if t = (0, 0) then [([], 0)] else [] := by
    intro t
    unfold Hashing.at
    by_cases c : t = (0, 0)
    · subst c; rfl
    · rw [List.idxOf_eq_length (by simpa using c)]
      simp [c]
  refine ⟨⟨by simp, by simp, rfl, by simp, by simp⟩, ?_, ?_, ?_, ?_, ?_, ?_⟩
  · intro t wi hwi
    rw [hat] at hwi
    split at hwi
    next c =>
      simp only [List.mem_singleton] at hwi
      subst hwi; subst c
      exact ⟨.nil _, .nil⟩
    next c => simp at hwi
  · intro t wi hwi
    rw [hat] at hwi
    split at hwi
    next c =>
      simp only [List.mem_singleton] at hwi
      subst hwi
      exact .inl rfl
    next c => simp at hwi
  · intro t
    rw [hat]
    split <;> simp
  · rw [hat]; simp
  · intro i
    simp only [List.not_mem_nil, false_iff, not_exists, not_and]
    intro p hp hq
    exact absurd (List.mem_of_getElem? hp) hq
  · intro p hp hq
    exact absurd hp hq

theorem mem_language {d o : Dag} {b : Hashing} (h : HRound d o b) (hq : b.queue = [])
    (wi : List Nat × Nat) :
    wi ∈ b.language ↔ ∃ t ∈ b.mapper, t.1 ∈ d.ends ∧ t.2 ∈ o.ends ∧ wi ∈ b.at t := by
  unfold Hashing.language
  simp only [List.mem_flatMap, List.mem_filter, List.mem_range, contains_iff]
  constructor
  · rintro ⟨s, ⟨_, h1⟩, h2⟩
    obtain ⟨t, k1, _, k2, k3⟩ := (h.ends s).1 h1
    have hm := List.mem_of_getElem? k1
    refine ⟨t, hm, k2, k3, ?_⟩
    unfold Hashing.at
    rw [nodup_getElem? h.shape.nodup (idxOf_pair hm) k1]
    exact h2
  · rintro ⟨t, h1, h2, h3, h4⟩
    refine ⟨b.mapper.idxOf t, ⟨List.idxOf_lt_length_of_mem h1, ?_⟩, h4⟩
    exact (h.ends _).2 ⟨t, idxOf_pair h1, by simp [hq], h2, h3⟩

theorem language_nodup {d o : Dag} (hd : StrictRows d) (ho : StrictRows o) {b : Hashing}
    (h : HRound d o b) : (b.language.map Prod.fst).Nodup := by
  unfold Hashing.language
  rw [List.map_flatMap]
  have hat : ∀ s, s < b.mapper.length → ∃ t, b.mapper[s]? = some t ∧ b.sl[s]?.getD [] = b.at t := by
    intro s hs
    refine ⟨_, List.getElem?_eq_getElem hs, ?_⟩
    unfold Hashing.at
    rw [nodup_getElem? h.shape.nodup (idxOf_pair (List.getElem_mem hs)) (List.getElem?_eq_getElem hs)]
  have hlt : ∀ s ∈ (List.range b.mapper.length).filter fun s => b.ends.contains s,
      s < b.mapper.length := by
    intro s hs
    exact List.mem_range.1 (List.mem_filter.1 hs).1
  have hnd : ((List.range b.mapper.length).filter fun s => b.ends.contains s).Nodup :=
    List.nodup_range.filter _
  generalize (List.range b.mapper.length).filter (fun s => b.ends.contains s) = l at hlt hnd
  induction l with
  | nil => simp
  | cons s l ih =>
    rw [List.nodup_cons] at hnd
    rw [List.flatMap_cons, List.nodup_append]
    obtain ⟨t, k1, k2⟩ := hat s (hlt s (by simp))
    refine ⟨by rw [k2]; exact h.distinct t, ih (fun r hr => hlt r (by simp [hr])) hnd.2, ?_⟩
    intro u hu v hv huv
    subst huv
    rw [k2] at hu
    obtain ⟨r, hr, hv⟩ := List.mem_flatMap.1 hv
    obtain ⟨t', k3, k4⟩ := hat r (hlt r (by simp [hr]))
    rw [k4] at hv
    obtain ⟨wi, m1, m2⟩ := List.mem_map.1 hu
    obtain ⟨wj, m3, m4⟩ := List.mem_map.1 hv
    have j1 := (h.sound t wi m1).1
    have j2 := (h.sound t' wj m3).1
    rw [m2] at j1
    rw [m4] at j2
    have := joint_unique hd ho j1 j2
    subst this
    have := nodup_getElem? h.shape.nodup k1 k3
    subst this
    exact hnd.1 hr

theorem multihash_spec {d o : Dag} (hv : Valid d) (hw : Valid o) (hd : StrictRows d)
    (ho : StrictRows o) (ha : ∀ p, ∀ x ∈ d.row p, x.q ≠ p) :
    ∃ l, d.multihash o = some l ∧ (l.map Prod.fst).Nodup ∧
      (∀ wi ∈ l, Accepts d 0 wi.1 ∧ Accepts o 0 wi.1 ∧ d.hash wi.1 = some wi.2) ∧
      ((∀ u v p q, Path d 0 u p → Path o 0 u q → Path d 0 v p → Path o 0 v q → u.length = v.length) →
        ∀ w, Accepts d 0 w → Accepts o 0 w → ∃ n, (w, n) ∈ l) := by
  obtain ⟨e, h1, h2, h3, h4⟩ := hashPairs_spec hd ho
    (fun p x hx e => ha _ _ (((common_spec hd ho p).1 x).1 hx).1 (by rw [e]))
    ((0, 0) :: (List.range d.rows.length).flatMap fun i =>
      (List.range o.rows.length).map fun j => (i, j))
    (by
      intro p _ x hx
      obtain ⟨g1, w, g2⟩ := ((common_spec hd ho p).1 x).1 hx
      apply List.mem_cons_of_mem
      rw [List.mem_flatMap]
      exact ⟨x.t.1, List.mem_range.2 (hv.arcs _ _ g1),
        List.mem_map.2 ⟨x.t.2, List.mem_range.2 (hw.arcs _ _ g2), rfl⟩⟩)
    (d.rows.length * o.rows.length + 2) _ (HRound.start d o) (by simp)
    (by
      simp only [List.length_cons, List.length_nil, List.length_flatMap, List.length_map,
        List.length_range, List.map_const', List.sum_replicate_nat]
      omega)
  refine ⟨e.language, by simp [Dag.multihash, h1], language_nodup hd ho h3, ?_, ?_⟩
  · intro wi hwi
    obtain ⟨t, _, k2, k3, k4⟩ := (mem_language h3 h2 wi).1 hwi
    obtain ⟨j, i⟩ := h3.sound t wi k4
    rw [joint_common hd ho] at j
    exact ⟨⟨t.1, j.1, k2⟩, ⟨t.2, j.2, k3⟩, i.hash hd k2⟩
  · rintro hlen w ⟨p, g1, g2⟩ ⟨q, g3, g4⟩
    have hj : Joint (common d o) (0, 0) w (p, q) := (joint_common hd ho).2 ⟨g1, g3⟩
    obtain ⟨lev, hlev⟩ : ∃ lev : Nat × Nat → Nat,
        ∀ u t, Joint (common d o) (0, 0) u t → lev t = u.length := by
      classical
      refine ⟨fun t => if h : ∃ u, Joint (common d o) (0, 0) u t then h.choose.length else 0, ?_⟩
      intro u t hu
      have hex : ∃ u, Joint (common d o) (0, 0) u t := ⟨u, hu⟩
      simp only [hex, dif_pos]
      have a1 := (joint_common hd ho).1 hex.choose_spec
      have a2 := (joint_common hd ho).1 hu
      exact hlen _ _ _ _ a1.1 a1.2 a2.1 a2.2
    have hfull := h4 lev hlev ⟨by simp, by simp, fun p hp => by
        simp only [List.mem_singleton] at hp; subst hp; exact ⟨[], .nil _⟩,
      fun p hp hq => absurd hp hq⟩
    have hmem : ∀ u t, Joint (common d o) (0, 0) u t → t ∈ e.mapper := by
      intro u
      induction u using List.reverseRecOn with
      | nil => intro t ht; cases ht; exact List.mem_of_getElem? h3.shape.first
      | append_singleton u a ih =>
        intro t ht
        obtain ⟨q, x, k1, k2, k3, k4⟩ := joint_split ht
        rw [← k4]
        exact h3.closed q (ih q k1) (by simp [h2]) x k2
    have hm := hmem w (p, q) hj
    obtain ⟨wi, k1, k2⟩ := List.mem_map.1 (hfull.full _ hm (by simp [h2]) w hj).1
    obtain ⟨w', n⟩ := wi
    simp only at k2
    subst k2
    exact ⟨n, (mem_language h3 h2 _).2 ⟨(p, q), hm, g2, g4, k1⟩⟩

end Verif.Dag
