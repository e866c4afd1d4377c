import Verif.Zval.Spec
import Verif.Zval.Lookup

/-!
# The properties of the hash tables (C137–C140)
-/

namespace Verif.Zval

variable {K V W : Type}

/-! ## C137: a table is a bag -/

theorem calls_allowed {F : Funs K V} (co : Coherent F) : ∀ (cs : List (Call K V)) (t : Table V)
    (k n : Nat) (bag : List V), Good F k t → bag.Perm (values t.block) → t.occ ≤ n →
    (t.size ≤ 2 ^ 29 ∨ t.size ≤ 4 * n + 2) → n + cs.length ≤ 2 ^ 28 →
    ∃ as t', t.calls F cs = some (as, t') ∧ Allowed F.same bag cs as := by
  intro cs
  induction cs with
  | nil => intro t k n bag _ _ _ _ _; exact ⟨[], t, rfl, .done⟩
  | cons c cs ih =>
    intro t k n bag g hb hn hs hl
    rw [List.length_cons] at hl
    have go : ∀ (a : Answer V) (t1 : Table V) (k1 : Nat) (bag1 : List V),
        t.call F c = some (a, t1) → Good F k1 t1 → bag1.Perm (values t1.block) →
        t1.occ ≤ n + 1 → (t1.size ≤ 2 ^ 29 ∨ t1.size ≤ 4 * (n + 1) + 2) →
        (∀ as, Allowed F.same bag1 cs as → Allowed F.same bag (c :: cs) (a :: as)) →
        ∃ as t', t.calls F (c :: cs) = some (as, t') ∧ Allowed F.same bag (c :: cs) as := by
      intro a t1 k1 bag1 hc g1 hb1 hn1 hs1 hal
      obtain ⟨as, t2, h1, h2⟩ := ih t1 k1 (n + 1) bag1 g1 hb1 hn1 hs1 (by omega)
      refine ⟨a :: as, t2, ?_, hal as h2⟩
      simp only [Table.calls, hc, Option.bind_some, h1, Option.map_some]
    cases c with
    | put v =>
      obtain ⟨t1, k1, h1, h2, h3, h4⟩ := put_good g v (by omega)
      refine go .nothing t1 k1 (v :: bag) ?_ h2 ((hb.cons v).trans h3.symm) ?_ ?_
        (fun as => .put)
      · simp only [Table.call, h1, Option.map_some]
      · rw [h2.occ, h3.length_eq, List.length_cons, ← g.occ]; omega
      · omega
    | get key =>
      obtain ⟨ix, i, h1, h2⟩ := get_good co g key
      rcases h2 with ⟨h2, h3⟩ | ⟨v, h2, h3⟩
      · refine go (.one none) t k bag ?_ g hb (by omega) (by omega)
          (fun as => .missing fun v hv => h3 v (hb.subset hv))
        simp [Table.call, Table.get, h1, h2, Slot.value]
      · refine go (.one (some v)) t k bag ?_ g hb (by omega) (by omega)
          (fun as => .found (hb.symm.subset (mem_values.mpr ⟨_, h2⟩)) h3)
        simp [Table.call, Table.get, h1, h2, Slot.value]
    | all key =>
      obtain ⟨l, h1, h2⟩ := all_good co g key
      refine go (.many l) t k bag ?_ g hb (by omega) (by omega)
        (fun as => .all (h2.trans (hb.symm.filter _)))
      simp only [Table.call, h1, Option.map_some]
    | remove key =>
      obtain ⟨r, t1, h1, g1, s1, h2⟩ := remove_good co g key
      have hc : t.call F (.remove key) = some (.one r, t1) := by
        simp only [Table.call, h1, Option.map_some]
      rcases h2 with ⟨h2, h3, h4⟩ | ⟨v, h2, h3, h4⟩
      · subst h2; subst h3
        exact go _ _ k bag hc g1 hb (by omega) (by omega)
          (fun as => .notRemoved fun v hv => h4 v (hb.subset hv))
      · subst h2
        refine go _ _ k (values t1.block) hc g1 (List.Perm.refl _) ?_ (by omega)
          (fun as => .removed h3 (hb.trans h4))
        have := h4.length_eq
        rw [List.length_cons, ← g.occ] at this
        rw [g1.occ]; omega
    | deleteAll key p =>
      obtain ⟨t1, h1, g1, s1, h2⟩ := deleteAll_good co g key p
      refine go .nothing t1 k (bag.filter fun v => !(F.same key v && p v)) ?_ g1 ?_ ?_ (by omega)
        (fun as => .deleted)
      · simp only [Table.call, h1, Option.map_some]
      · rw [h2]; exact hb.filter _
      · rw [g1.occ, h2]
        have := List.length_filter_le (fun v => !(F.same key v && p v)) (values t.block)
        rw [← g.occ] at this
        omega

/-- **C137** For all sequences of calls of `put`, `get`, `getNext`, `remove` and of the
deleting functions on a table that begins with a power of two slots, every call
ends, and the answers are those of a bag: `get` finds a value of the key iff
there is one, `getNext` finds them all, each once, `remove` takes one away, and the
deleting functions take away just what they are to.  The growing of the table,
its tombstones and the collisions cannot be seen from outside. -/
theorem C137_bag (F : Funs K V) (co : Coherent F) (k : Nat) (hk : k ≤ 29)
    (cs : List (Call K V)) (hl : cs.length ≤ 2 ^ 28) :
    ∃ as t, (generate V (2 ^ k)).calls F cs = some (as, t) ∧ Allowed F.same [] cs as := by
  refine calls_allowed co cs _ k 0 [] (good_generate F (by omega)) ?_ (Nat.zero_le _) ?_ (by omega)
  · show List.Perm [] (values (List.replicate (2 ^ k) Slot.empty))
    rw [values_replicate]
  · left
    exact Nat.pow_le_pow_right (by omega) hk

/-- The hypotheses of `C137_bag` are met by the table of subroutines
(`tools/translators/transferer/transferer.cpp`, 70-72): 1024 slots, the key a pair and the
hash the sum of two addresses (`common/zvalue.cpp`, 1069-1087). -/
example : Coherent (Funs.mk (fun k : Nat × Nat => k.1 + k.2)
    (fun v : (Nat × Nat) × Nat => v.1.1 + v.1.2)
    fun k v => decide (k.1 = v.1.1) && decide (k.2 = v.1.2)) := by
  intro k v h
  simp only [Bool.and_eq_true, decide_eq_true_eq] at h
  simp only [h.1, h.2]

/-! ## C138, C139: environments -/

theorem envFuns_coherent [DecidableEq K] (hash : K → Nat) : Coherent (envFuns K W hash) := by
  intro k v h
  simp only [envFuns, decide_eq_true_eq] at h ⊢
  rw [h]

theorem env_same_false [DecidableEq K] {hash : K → Nat} {s : K} {l : List (K × W)} :
    (∀ v ∈ l, (envFuns K W hash).same s v = false) ↔ ∀ d, (s, d) ∉ l := by
  constructor
  · intro h d hd
    have := h _ hd
    simp [envFuns] at this
  · rintro h ⟨a, b⟩ hv
    simp only [envFuns, decide_eq_false_iff_not]
    rintro rfl
    exact h b hv

theorem envCalls_allowed [DecidableEq K] [DecidableEq W] (hash : K → Nat) :
    ∀ (cs : List (EnvCall K W)) (t : Table (K × W))
    (k n : Nat) (bag : List (K × W)), Good (envFuns K W hash) k t → bag.Perm (values t.block) →
    t.occ ≤ n → (t.size ≤ 2 ^ 29 ∨ t.size ≤ 4 * n + 2) → n + cs.length ≤ 2 ^ 28 →
    ∃ as, t.envCalls hash cs = some as ∧ EnvAllowed bag cs as := by
  intro cs
  induction cs with
  | nil => intro t k n bag _ _ _ _ _; exact ⟨[], rfl, .done⟩
  | cons c cs ih =>
    intro t k n bag g hb hn hs hl
    rw [List.length_cons] at hl
    have co := envFuns_coherent (W := W) hash
    have go : ∀ (a : EnvAnswer W) (t1 : Table (K × W)) (k1 : Nat) (bag1 : List (K × W)),
        t.envCall hash c = some (a, t1) → Good (envFuns K W hash) k1 t1 →
        bag1.Perm (values t1.block) →
        t1.occ ≤ n + 1 → (t1.size ≤ 2 ^ 29 ∨ t1.size ≤ 4 * (n + 1) + 2) →
        (∀ as, EnvAllowed bag1 cs as → EnvAllowed bag (c :: cs) (a :: as)) →
        ∃ as, t.envCalls hash (c :: cs) = some as ∧ EnvAllowed bag (c :: cs) as := by
      intro a t1 k1 bag1 hc g1 hb1 hn1 hs1 hal
      obtain ⟨as, h1, h2⟩ := ih t1 k1 (n + 1) bag1 g1 hb1 hn1 hs1 (by omega)
      refine ⟨a :: as, ?_, hal as h2⟩
      simp only [Table.envCalls, hc, Option.bind_some, h1, Option.map_some]
    have goPut : ∀ (s : K) (d : W),
        (t.put (envFuns K W hash) (s, d)).map (fun t' => (EnvAnswer.nothing, t')) =
          t.envCall hash c →
        (∀ as, EnvAllowed ((s, d) :: bag) cs as → EnvAllowed bag (c :: cs) (.nothing :: as)) →
        ∃ as, t.envCalls hash (c :: cs) = some as ∧ EnvAllowed bag (c :: cs) as := by
      intro s d hc hal
      obtain ⟨t1, k1, h1, h2, h3, h4⟩ := put_good g (s, d) (by omega)
      refine go .nothing t1 k1 ((s, d) :: bag) ?_ h2 ((hb.cons _).trans h3.symm) ?_ ?_ hal
      · rw [← hc, h1]; rfl
      · rw [h2.occ, h3.length_eq, List.length_cons, ← g.occ]; omega
      · omega
    have goDelete : ∀ (s : K) (p : K × W → Bool),
        (t.deleteAll (envFuns K W hash) s p).map (fun t' => (EnvAnswer.nothing, t')) =
          t.envCall hash c →
        (∀ as, EnvAllowed (bag.filter fun v => !((envFuns K W hash).same s v && p v)) cs as →
          EnvAllowed bag (c :: cs) (.nothing :: as)) →
        ∃ as, t.envCalls hash (c :: cs) = some as ∧ EnvAllowed bag (c :: cs) as := by
      intro s p hc hal
      obtain ⟨t1, h1, g1, s1, h2⟩ := deleteAll_good co g s p
      refine go .nothing t1 k _ ?_ g1 ?_ ?_ (by omega) hal
      · rw [← hc, h1]; rfl
      · rw [h2]; exact hb.filter _
      · rw [g1.occ, h2]
        have := List.length_filter_le (fun v => !((envFuns K W hash).same s v && p v))
          (values t.block)
        rw [← g.occ] at this
        omega
    have key : ∀ s, ∃ ix i, t.getFrom (envFuns K W hash) s 0 = some (ix, i) ∧
        ((t.block[ix]? = some .empty ∧ ∀ d, (s, d) ∉ bag) ∨
          ∃ d, t.block[ix]? = some (.live (s, d)) ∧ (s, d) ∈ bag) := by
      intro s
      obtain ⟨ix, i, h1, h2⟩ := get_good co g s
      refine ⟨ix, i, h1, ?_⟩
      rcases h2 with ⟨h2, h3⟩ | ⟨⟨a, d⟩, h2, h3⟩
      · left
        refine ⟨h2, fun d hd => ?_⟩
        exact env_same_false.mp h3 d (hb.subset hd)
      · right
        simp only [envFuns, decide_eq_true_eq] at h3
        subst h3
        exact ⟨d, h2, hb.symm.subset (mem_values.mpr ⟨_, h2⟩)⟩
    cases c with
    | fetch s =>
      obtain ⟨ix, i, h1, h2⟩ := key s
      rcases h2 with ⟨h2, h3⟩ | ⟨d, h2, h3⟩
      · refine go (.value none) t k bag ?_ g hb (by omega) (by omega) (fun as => .missing h3)
        simp [Table.envCall, Table.fetch, Table.get, h1, h2, Slot.value]
      · refine go (.value (some d)) t k bag ?_ g hb (by omega) (by omega) (fun as => .fetched h3)
        simp [Table.envCall, Table.fetch, Table.get, h1, h2, Slot.value]
    | defined s =>
      obtain ⟨ix, i, h1, h2⟩ := key s
      rcases h2 with ⟨h2, h3⟩ | ⟨d, h2, h3⟩
      · refine go (.truth false) t k bag ?_ g hb (by omega) (by omega) (fun as => .undefined h3)
        simp [Table.envCall, Table.defined, Table.get, h1, h2, Slot.value]
      · refine go (.truth true) t k bag ?_ g hb (by omega) (by omega) (fun as => .isDefined h3)
        simp [Table.envCall, Table.defined, Table.get, h1, h2, Slot.value]
    | change s d =>
      obtain ⟨ix, i, h1, h2⟩ := key s
      rcases h2 with ⟨h2, h3⟩ | ⟨d0, h2, h3⟩
      · refine goPut s d ?_ (fun as => .added h3)
        simp [Table.envCall, Table.change, h1, h2]
      · obtain ⟨rest, p1, p2⟩ := values_set_change h2 (s, d)
        refine go .nothing { t with block := t.block.set ix (.live (s, d)) } k ((s, d) :: rest)
          ?_ (replace_good g h2 rfl) p2.symm (by simp only; omega) (by simp only; omega)
          (fun as => .changed (hb.trans p1))
        simp [Table.envCall, Table.change, h1, h2]
    | insert s d => exact goPut s d rfl (fun as => .inserted)
    | deleteAllKeyValue s d =>
      refine goDelete s (fun p => decide (p.2 = d)) rfl (fun as h => .deletedPair ?_)
      have : (fun v : K × W => !((envFuns K W hash).same s v && decide (v.2 = d))) =
          fun v => decide (v ≠ (s, d)) := by
        funext v
        obtain ⟨a, b⟩ := v
        by_cases h1 : s = a <;> by_cases h2 : b = d <;> simp_all [envFuns, eq_comm]
      rw [this] at h
      exact h
    | deleteAllKey s =>
      refine goDelete s (fun _ => true) rfl (fun as h => .deletedKey ?_)
      have : (fun v : K × W => !((envFuns K W hash).same s v && true)) =
          fun v => decide (v.1 ≠ s) := by
        funext v
        by_cases h1 : s = v.1 <;> simp_all [envFuns, eq_comm]
      rw [this] at h
      exact h
    | remove s =>
      obtain ⟨r, t1, h1, g1, s1, h2⟩ := remove_good co g s
      have hc : t.envCall hash (.remove s) = some (.value (r.map (·.2)), t1) := by
        simp only [Table.envCall, h1, Option.map_some]
      rcases h2 with ⟨h2, h3, h4⟩ | ⟨⟨a, d⟩, h2, h3, h4⟩
      · subst h2; subst h3
        exact go _ _ k bag hc g1 hb (by omega) (by omega)
          (fun as => .notRemoved fun d hd => env_same_false.mp h4 d (hb.subset hd))
      · subst h2
        simp only [envFuns, decide_eq_true_eq] at h3
        subst h3
        refine go _ _ k (values t1.block) hc g1 (List.Perm.refl _) ?_ (by omega)
          (fun as => .removed (hb.trans h4))
        have := h4.length_eq
        rw [List.length_cons, ← g.occ] at this
        rw [g1.occ]; omega

/-- The bag that holds what the map holds. -/
def SameMap [DecidableEq K] (bag : List (K × W)) (m : K → Option W) : Prop :=
  (bag.map (·.1)).Nodup ∧ ∀ s d, (s, d) ∈ bag ↔ m s = some d

theorem SameMap.perm [DecidableEq K] {bag bag' : List (K × W)} {m : K → Option W}
    (h : SameMap bag m) (p : bag.Perm bag') : SameMap bag' m :=
  ⟨(p.map _).nodup_iff.mp h.1, fun s d => by rw [← p.mem_iff]; exact h.2 s d⟩

theorem SameMap.missing [DecidableEq K] {bag : List (K × W)} {m : K → Option W}
    (h : SameMap bag m) {s : K} (hn : ∀ d, (s, d) ∉ bag) : m s = none := by
  cases hm : m s with
  | none => rfl
  | some d => exact absurd ((h.2 s d).mpr hm) (hn d)

theorem SameMap.add [DecidableEq K] {bag : List (K × W)} {m : K → Option W}
    (h : SameMap bag m) {s : K} (hn : m s = none) (d : W) :
    SameMap ((s, d) :: bag) (assign m s (some d)) := by
  refine ⟨?_, ?_⟩
  · rw [List.map_cons, List.nodup_cons]
    refine ⟨?_, h.1⟩
    intro hmem
    obtain ⟨⟨a, b⟩, hab, e⟩ := List.mem_map.mp hmem
    simp only at e
    subst e
    have := (h.2 a b).mp hab
    rw [hn] at this
    simp at this
  · intro a b
    rw [List.mem_cons, h.2 a b]
    unfold assign
    by_cases e : a = s
    · subst e
      rw [if_pos rfl, hn]
      simp [eq_comm]
    · rw [if_neg e]
      simp [e]

theorem SameMap.drop [DecidableEq K] {rest : List (K × W)} {m : K → Option W} {s : K} {d : W}
    (h : SameMap ((s, d) :: rest) m) : SameMap rest (assign m s none) ∧ m s = some d := by
  have hm : m s = some d := (h.2 s d).mp (by simp)
  have nd := h.1
  rw [List.map_cons, List.nodup_cons] at nd
  refine ⟨⟨nd.2, ?_⟩, hm⟩
  intro a b
  unfold assign
  by_cases e : a = s
  · subst e
    rw [if_pos rfl]
    constructor
    · intro hab
      exact absurd (List.mem_map.mpr ⟨_, hab, rfl⟩) nd.1
    · simp
  · rw [if_neg e, ← h.2 a b, List.mem_cons]
    simp [e]

theorem assign_assign [DecidableEq K] (m : K → Option W) (s : K) (a b : Option W) :
    assign (assign m s a) s b = assign m s b := by
  funext k
  unfold assign
  split <;> rfl

theorem assign_same [DecidableEq K] {m : K → Option W} {s : K} (a : Option W) (h : m s = a) :
    assign m s a = m := by
  funext k
  unfold assign
  split
  · rename_i e; rw [e, h]
  · rfl

theorem allowed_map [DecidableEq K] [DecidableEq W] {bag : List (K × W)}
    {cs : List (EnvCall K W)} {as : List (EnvAnswer W)} (h : EnvAllowed bag cs as) :
    ∀ (m : K → Option W), SameMap bag m → InsertsNew m cs → as = mapAnswers m cs := by
  induction h with
  | done => intro m _ _; rfl
  | fetched hd _ ih =>
    intro m hm hi
    rw [mapAnswers, ← ih m hm hi, (hm.2 _ _).mp hd]
  | missing hd _ ih =>
    intro m hm hi
    rw [mapAnswers, ← ih m hm hi, hm.missing hd]
  | isDefined hd _ ih =>
    intro m hm hi
    rw [mapAnswers, ← ih m hm hi, (hm.2 _ _).mp hd]
    rfl
  | undefined hd _ ih =>
    intro m hm hi
    rw [mapAnswers, ← ih m hm hi, hm.missing hd]
    rfl
  | @changed bag s d d0 rest cs as p _ ih =>
    intro m hm hi
    obtain ⟨h1, h2⟩ := (hm.perm p).drop
    rw [mapAnswers, ← ih _ ?_ hi]
    have := h1.add (s := s) (by simp [assign]) d
    rw [assign_assign] at this
    exact this
  | added hd _ ih =>
    intro m hm hi
    rw [mapAnswers, ← ih _ (hm.add (hm.missing hd) _) hi]
  | inserted _ ih =>
    intro m hm hi
    rw [mapAnswers, ← ih _ (hm.add hi.1 _) hi.2]
  | @deletedPair bag s d cs as _ ih =>
    intro m hm hi
    rw [mapAnswers, ← ih _ ?_ hi]
    refine ⟨(List.filter_sublist.map _).nodup hm.1, ?_⟩
    intro a b
    rw [List.mem_filter, hm.2 a b]
    simp only [decide_eq_true_eq, ne_eq, Prod.mk.injEq, not_and]
    by_cases c : m s = some d
    · rw [if_pos c]
      unfold assign
      by_cases e : a = s
      · subst e
        rw [if_pos rfl, c]
        simp only [Option.some.injEq, true_implies]
        constructor
        · rintro ⟨h1, h2⟩; exact absurd h1.symm h2
        · simp
      · rw [if_neg e]; simp [e]
    · rw [if_neg c]
      constructor
      · exact fun h => h.1
      · intro h1
        refine ⟨h1, ?_⟩
        rintro rfl rfl
        exact c h1
  | @deletedKey bag s cs as _ ih =>
    intro m hm hi
    rw [mapAnswers, ← ih _ ?_ hi]
    refine ⟨(List.filter_sublist.map _).nodup hm.1, ?_⟩
    intro a b
    rw [List.mem_filter, hm.2 a b]
    unfold assign
    by_cases e : a = s <;> simp [e]
  | removed p _ ih =>
    intro m hm hi
    obtain ⟨h1, h2⟩ := (hm.perm p).drop
    rw [mapAnswers, ← ih _ h1 hi, h2]
  | @notRemoved bag s cs as hd _ ih =>
    intro m hm hi
    have hn := hm.missing hd
    simp only [InsertsNew] at hi
    rw [assign_same none hn] at hi
    rw [mapAnswers, hn, assign_same none hn, ← ih _ hm hi]

/-- **C138** An environment that begins with a power of two slots is a map: for all
sequences of calls in which nothing is inserted under a key that is there, every
call ends and answers what a map answers. -/
theorem C138_map [DecidableEq K] [DecidableEq W] (hash : K → Nat) (k : Nat) (hk : k ≤ 29)
    (cs : List (EnvCall K W)) (hl : cs.length ≤ 2 ^ 28) (hi : InsertsNew (fun _ => none) cs) :
    (generate (K × W) (2 ^ k)).envCalls hash cs = some (mapAnswers (fun _ => none) cs) := by
  obtain ⟨as, h1, h2⟩ := envCalls_allowed hash cs (generate (K × W) (2 ^ k)) k 0 []
    (good_generate _ (by omega)) (by
      show List.Perm [] (values (List.replicate (2 ^ k) Slot.empty))
      rw [values_replicate]) (Nat.zero_le _)
    (Or.inl (Nat.pow_le_pow_right (by omega) hk)) (by omega)
  rw [h1, allowed_map h2 _ ⟨by simp, by simp⟩ hi]

/-- The hypotheses of `C138_map` are met: an attribute is set, changed, deleted and
inserted anew. -/
example : InsertsNew (fun _ : Nat => (none : Option Nat))
    [.change 3 7, .change 3 8, .fetch 3, .deleteAllKey 3, .insert 3 9, .deleteAllKeyValue 3 1,
     .fetch 3] := by
  simp [InsertsNew, assign]

/-- **C139, partial** With insertions under keys that are there the environment is
still a bag of pairs: every call ends, and `fetch` gives one of the values that were
inserted under the key and not deleted since.  Missing: which one. -/
theorem C139_partial [DecidableEq K] [DecidableEq W] (hash : K → Nat) (k : Nat) (hk : k ≤ 29)
    (cs : List (EnvCall K W)) (hl : cs.length ≤ 2 ^ 28) :
    ∃ as, (generate (K × W) (2 ^ k)).envCalls hash cs = some as ∧ EnvAllowed [] cs as :=
  envCalls_allowed hash cs (generate (K × W) (2 ^ k)) k 0 []
    (good_generate _ (by omega)) (by
      show List.Perm [] (values (List.replicate (2 ^ k) Slot.empty))
      rw [values_replicate]) (Nat.zero_le _)
    (Or.inl (Nat.pow_le_pow_right (by omega) hk)) (by omega)

/-- **C139** What an environment with two values under a key answers is not determined
by what was done to that key.  Both times 1 and then 2 are inserted under the key
at the address 64; the first time the older value is fetched, the second time,
when another key was deleted in between, the newer one. -/
theorem C139_false :
    (generate (Nat × Nat) 8).envCalls id
      [.insert 64 1, .insert 64 2, .fetch 64] =
        some [.nothing, .nothing, .value (some 1)] ∧
    (generate (Nat × Nat) 8).envCalls id
      [.insert 32 0, .insert 64 1, .deleteAllKey 32, .insert 64 2, .fetch 64] =
        some [.nothing, .nothing, .nothing, .nothing, .value (some 2)] := by
  decide +kernel

/-! ## C140: the loops end -/

theorem findFree_none {block : List (Slot V)} {s h : Nat} : ∀ (fuel i : Nat),
    (∀ n, ∃ x, block[position s h n]? = some x) →
    findFree block s (h ||| 1) fuel (position s h i) = none →
    ∀ m, i ≤ m → m < i + fuel → ∃ v, block[position s h m]? = some (.live v) := by
  intro fuel
  induction fuel with
  | zero => intro i _ _ m h1 h2; omega
  | succ f ih =>
    intro i inside hn m h1 h2
    obtain ⟨x, hx⟩ := inside i
    unfold findFree at hn
    rw [hx] at hn
    cases x with
    | empty => simp at hn
    | deleted => simp at hn
    | live v =>
      by_cases e : m = i
      · subst e; exact ⟨v, hx⟩
      · exact ih (i + 1) inside hn m (by omega) (by omega)

theorem scan_none {same : V → Bool} {block : List (Slot V)} {s h : Nat} : ∀ (fuel i j : Nat),
    (∀ n, ∃ x, block[position s h n]? = some x) →
    scan same block s (h ||| 1) fuel (position s h i) j = none →
    ∀ m, i ≤ m → m < i + fuel → block[position s h m]? = some .deleted ∨
      ∃ v, block[position s h m]? = some (.live v) ∧ same v = false := by
  intro fuel
  induction fuel with
  | zero => intro i j _ _ m h1 h2; omega
  | succ f ih =>
    intro i j inside hn m h1 h2
    obtain ⟨x, hx⟩ := inside i
    unfold scan at hn
    rw [hx] at hn
    cases x with
    | empty => simp at hn
    | deleted =>
      by_cases e : m = i
      · subst e; exact Or.inl hx
      · exact ih (i + 1) (j + 1) inside hn m (by omega) (by omega)
    | live v =>
      simp only at hn
      cases hs : same v with
      | true => rw [hs] at hn; simp at hn
      | false =>
        rw [hs] at hn
        by_cases e : m = i
        · subst e; exact Or.inr ⟨v, hx, hs⟩
        · exact ih (i + 1) (j + 1) inside hn m (by omega) (by omega)

theorem position_lt {s : Nat} (hs : 0 < s) (h n : Nat) : position s h n < s := by
  cases n with
  | zero => exact Nat.mod_lt _ hs
  | succ n => exact Nat.mod_lt _ hs

/-- The positions of the first `s` steps are all that there are. -/
theorem position_early {s : Nat} (hs : 0 < s) (h n : Nat) :
    ∃ m, m < s ∧ position s h m = position s h n := by
  obtain ⟨a, b, hab, he⟩ : ∃ a b : Fin (s + 1), a < b ∧ position s h a = position s h b := by
    have : ¬ Function.Injective
        (fun i : Fin (s + 1) => (⟨position s h i, position_lt hs h i⟩ : Fin s)) := by
      intro inj
      have := Fintype.card_le_of_injective _ inj
      simp at this
    rw [Function.not_injective_iff] at this
    obtain ⟨a, b, he, hne⟩ := this
    have he := congrArg Fin.val he
    rcases lt_or_gt_of_ne hne with h1 | h1
    · exact ⟨a, b, h1, he⟩
    · exact ⟨b, a, h1, he.symm⟩
  have shift : ∀ c, position s h (a + c) = position s h (b + c) := by
    intro c
    induction c with
    | zero => exact he
    | succ c ih =>
      show position s h ((a + c) + 1) = position s h ((b + c) + 1)
      simp only [position, ih]
  induction n using Nat.strong_induction_on with
  | _ n ih =>
    by_cases c : n < s
    · exact ⟨n, c, rfl⟩
    · have hb : (b : Nat) ≤ n := by have := b.2; omega
      have h1 : position s h n = position s h (a + (n - b)) := by
        rw [shift (n - b)]
        congr 1
        omega
      have hlt : (a : Nat) < b := hab
      obtain ⟨m, hm, hp⟩ := ih (a + (n - b)) (by omega)
      exact ⟨m, hm, by rw [hp, h1]⟩

/-- **C140** The outcome `none` of the model of the two loops is the loop that never
ends: `put_` fails iff the slots of all positions, however many steps are made, are
taken, and `get_` fails iff none of them is empty and none holds a value of the
key. -/
theorem C140_forever (F : Funs K V) (t : Table V) (hs : 0 < t.size)
    (hl : t.block.length = t.size) :
    (∀ v, t.putRaw F v = none ↔
      ∀ n, ∃ w, t.block[position t.size (F.valHash v % 2 ^ 32) n]? = some (.live w)) ∧
    (∀ key, t.get F key = none ↔
      ∀ n, t.block[position t.size (F.keyHash key % 2 ^ 32) n]? = some .deleted ∨
        ∃ w, t.block[position t.size (F.keyHash key % 2 ^ 32) n]? = some (.live w) ∧
          F.same key w = false) := by
  have inside : ∀ h n, ∃ x, t.block[position t.size h n]? = some x := by
    intro h n
    have : position t.size h n < t.block.length := by rw [hl]; exact position_lt hs h n
    exact ⟨_, List.getElem?_eq_getElem this⟩
  have hs' : ¬ t.size = 0 := by omega
  constructor
  · intro v
    obtain ⟨h, hh⟩ : ∃ h, h = F.valHash v % 2 ^ 32 := ⟨_, rfl⟩
    rw [← hh]
    have e : t.putRaw F v = none ↔
        findFree t.block t.size (h ||| 1) t.size (position t.size h 0) = none := by
      unfold Table.putRaw
      rw [if_neg hs']
      simp only [Option.map_eq_none_iff]
      rw [hh]
      exact Iff.rfl
    rw [e]
    constructor
    · intro hn n
      obtain ⟨m, hm, hp⟩ := position_early hs h n
      rw [← hp]
      exact findFree_none t.size 0 (inside h) hn m (Nat.zero_le _) (by omega)
    · intro hall
      have : ∀ fuel i, findFree t.block t.size (h ||| 1) fuel (position t.size h i) = none := by
        intro fuel
        induction fuel with
        | zero => intro i; rfl
        | succ f ih =>
          intro i
          obtain ⟨w, hw⟩ := hall i
          unfold findFree
          rw [hw]
          exact ih (i + 1)
      exact this _ _
  · intro key
    obtain ⟨h, hh⟩ : ∃ h, h = F.keyHash key % 2 ^ 32 := ⟨_, rfl⟩
    rw [← hh]
    have start : (h + 0 * (h ||| 1)) % word % t.size = position t.size h 0 := by
      rw [Nat.zero_mul, Nat.add_zero, hh, Nat.mod_mod]
      rfl
    have e : t.get F key = none ↔
        scan (F.same key) t.block t.size (h ||| 1) t.size (position t.size h 0) 0 = none := by
      unfold Table.get Table.getFrom
      rw [if_neg hs', Option.map_eq_none_iff, ← start, hh]
    rw [e]
    constructor
    · intro hn n
      obtain ⟨m, hm, hp⟩ := position_early hs h n
      rw [← hp]
      exact scan_none t.size 0 0 (inside h) hn m (Nat.zero_le _) (by omega)
    · intro hall
      have : ∀ fuel i j,
          scan (F.same key) t.block t.size (h ||| 1) fuel (position t.size h i) j = none := by
        intro fuel
        induction fuel with
        | zero => intro i j; rfl
        | succ f ih =>
          intro i j
          unfold scan
          rcases hall i with hw | ⟨w, hw, hsame⟩
          · rw [hw]; exact ih (i + 1) (j + 1)
          · rw [hw]
            simp only [hsame]
            exact ih (i + 1) (j + 1)
      exact this _ _ _

/-- The hypotheses of `C140_forever` are met by a table with no slot left. -/
example : (0 < (Table.mk 1 1 1 [Slot.live 5]).size) ∧
    (Table.mk 1 1 1 [Slot.live 5]).block.length = (Table.mk 1 1 1 [Slot.live 5]).size := by
  decide

/-- **C140** The table of scripts of the transferer begins with 10 slots
(`tools/translators/transferer/transferer.cpp`, 66-67).  With two scripts whose names
have addresses such as 64 and 144 in it, the call that adds a third one at 224 never
ends, and the lookup of a script that is not there at 224 never ends either. -/
theorem C140_false :
    (generate (Nat × Nat) 10).envCalls id [.insert 64 0, .insert 144 0] =
      some [.nothing, .nothing] ∧
    (generate (Nat × Nat) 10).envCalls id [.insert 64 0, .insert 144 0, .insert 224 0] = none ∧
    (generate (Nat × Nat) 10).envCalls id [.insert 64 0, .insert 144 0, .fetch 224] = none := by
  decide +kernel

/-- **C140, partial** With a power of two of slots at the beginning every call of every
sequence ends.  Missing: other sizes, for which it is false. -/
theorem C140_partial (F : Funs K V) (co : Coherent F) (k : Nat) (hk : k ≤ 29)
    (cs : List (Call K V)) (hl : cs.length ≤ 2 ^ 28) :
    ∃ r, (generate V (2 ^ k)).calls F cs = some r := by
  obtain ⟨as, t, h, _⟩ := C137_bag F co k hk cs hl
  exact ⟨_, h⟩

end Verif.Zval
