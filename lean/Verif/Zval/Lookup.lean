import Verif.Zval.Lemmas
import Mathlib.Data.List.Nodup
import Mathlib.Data.List.Range
import Mathlib.Data.List.Lattice

/-! # Lemmas about looking up and removing -/

namespace Verif.Zval

variable {K V : Type}

/-! ## Changing one slot -/

theorem countP_set_used {block : List (Slot V)} {ix : Nat} {x y : Slot V}
    (h : block[ix]? = some x) (hx : x.used = true) (hy : y.used = true) :
    (block.set ix y).countP Slot.used = block.countP Slot.used := by
  obtain ⟨h1, h2⟩ := set_split h y
  rw [h2]
  conv => rhs; rw [h1]
  rw [List.countP_append, List.countP_append, List.countP_cons, List.countP_cons, hx, hy]

theorem delete_good {F : Funs K V} {k : Nat} {t : Table V} (g : Good F k t) {ix : Nat} {v : V}
    (h : t.block[ix]? = some (.live v)) :
    Good F k { t with occ := t.occ - 1, block := t.block.set ix .deleted } := by
  have hp := values_set_deleted h
  have hl := hp.length_eq
  rw [List.length_cons] at hl
  have hc : (t.block.set ix Slot.deleted).countP Slot.used = t.block.countP Slot.used :=
    countP_set_used h rfl rfl
  have occ := g.occ
  have half := g.half
  refine ⟨⟨g.size, g.small, by simpa using g.len, ?_⟩, ?_, ?_, ?_, ?_⟩
  · intro j w hj
    simp only at hj ⊢
    rw [List.getElem?_set] at hj
    split at hj
    · split at hj <;> simp at hj
    · obtain ⟨n, hn, hp, hb⟩ := g.reach j w hj
      refine ⟨n, hn, hp, ?_⟩
      intro m hm
      rw [List.getElem?_set]
      split
      · split <;> simp
      · exact hb m hm
  · simp only; omega
  · simp only; omega
  · simp only; rw [hc]; exact g.count
  · simp only; rw [hc]; exact g.room

theorem replace_good {F : Funs K V} {k : Nat} {t : Table V} (g : Good F k t) {ix : Nat} {v w : V}
    (h : t.block[ix]? = some (.live v)) (hh : F.valHash w = F.valHash v) :
    Good F k { t with block := t.block.set ix (.live w) } := by
  obtain ⟨rest, p1, p2⟩ := values_set_change h w
  have hl : (values (t.block.set ix (.live w))).length = (values t.block).length := by
    rw [p1.length_eq, p2.length_eq]; rfl
  have hc : (t.block.set ix (.live w)).countP Slot.used = t.block.countP Slot.used :=
    countP_set_used h rfl rfl
  have key : ∀ (a : Nat), t.block[a]? ≠ some .empty →
      (t.block.set ix (.live w))[a]? ≠ some .empty := by
    intro a ha
    rw [List.getElem?_set]
    split
    · split <;> simp
    · exact ha
  refine ⟨⟨g.size, g.small, by simpa using g.len, ?_⟩, ?_, g.half, ?_, ?_⟩
  · intro j u hj
    simp only at hj ⊢
    rw [List.getElem?_set] at hj
    split at hj
    · rename_i e
      split at hj
      · simp only [Option.some.injEq, Slot.live.injEq] at hj
        subst hj
        subst e
        obtain ⟨n, hn, hp, hb⟩ := g.reach ix v h
        rw [hh]
        exact ⟨n, hn, hp, fun m hm => key _ (hb m hm)⟩
      · simp at hj
    · obtain ⟨n, hn, hp, hb⟩ := g.reach j u hj
      exact ⟨n, hn, hp, fun m hm => key _ (hb m hm)⟩
  · simp only; rw [hl]; exact g.occ
  · simp only; rw [hc]; exact g.count
  · simp only; rw [hc]; exact g.room

/-! ## `get_` -/

/-- The number of the first probe for the hash `h` that meets an empty slot. -/
structure Ends (t : Table V) (h N : Nat) : Prop where
  lt : N < t.size
  empty : t.block[probe t.size h N]? = some .empty
  before : ∀ m, m < N → t.block[probe t.size h m]? ≠ some .empty

theorem Good.ends {F : Funs K V} {k : Nat} {t : Table V} (g : Good F k t) (h : Nat) :
    ∃ N, Ends t h N := by
  obtain ⟨N, h1, h2, h3⟩ := g.toSound.first_empty g.room h
  exact ⟨N, h1, h2, h3⟩

theorem getFrom_eq {F : Funs K V} {k : Nat} {t : Table V} (g : Sound F k t) {key : K} {N : Nat}
    (e : Ends t (F.keyHash key % word) N) {i : Nat} (hi : i ≤ N) :
    ∃ n, i ≤ n ∧ n ≤ N ∧ t.getFrom F key i = some (probe t.size (F.keyHash key % word) n, n) ∧
      (∀ m, i ≤ m → m < n → ∀ v,
        t.block[probe t.size (F.keyHash key % word) m]? = some (.live v) → F.same key v = false) ∧
      (n = N ∨ n < N ∧ ∃ v, t.block[probe t.size (F.keyHash key % word) n]? = some (.live v) ∧
        F.same key v = true) := by
  classical
  set h := F.keyHash key % word with hh
  let stop : Nat → Prop := fun n => i ≤ n ∧ (t.block[probe t.size h n]? = some .empty ∨
    ∃ v, t.block[probe t.size h n]? = some (.live v) ∧ F.same key v = true)
  have ex : ∃ n, stop n := ⟨N, hi, Or.inl e.empty⟩
  obtain ⟨n, hn⟩ : ∃ n, n = Nat.find ex := ⟨_, rfl⟩
  have h1 : stop (Nat.find ex) := Nat.find_spec ex
  have h2 := fun m (hm : m < Nat.find ex) => Nat.find_min ex hm
  have h3 : Nat.find ex ≤ N := Nat.find_min' ex ⟨hi, Or.inl e.empty⟩
  rw [← hn] at h1 h2 h3
  have pass : ∀ m, i ≤ m → m < n → t.block[probe t.size h m]? = some .deleted ∨
      ∃ v, t.block[probe t.size h m]? = some (.live v) ∧ F.same key v = false := by
    intro m hm1 hm2
    obtain ⟨x, hx⟩ := g.slot h m
    have h4 := h2 m hm2
    cases x with
    | empty => exact absurd ⟨hm1, Or.inl hx⟩ h4
    | deleted => exact Or.inl hx
    | live v =>
      right
      refine ⟨v, hx, ?_⟩
      cases hs : F.same key v
      · rfl
      · exact absurd ⟨hm1, Or.inr ⟨v, hx, hs⟩⟩ h4
  have loop := scan_eq (same := F.same key) g.dvd n t.size i h1.1 (by have := e.lt; omega) pass h1.2
  refine ⟨n, h1.1, h3, ?_, ?_, ?_⟩
  · unfold Table.getFrom
    rw [if_neg (by have := g.pos; omega)]
    simp only [← hh]
    rw [start_probe g.dvd]
    exact loop
  · intro m hm1 hm2 v hv
    rcases pass m hm1 hm2 with h5 | ⟨w, h5, h6⟩
    · rw [h5] at hv; simp at hv
    · rw [h5] at hv
      simp only [Option.some.injEq, Slot.live.injEq] at hv
      rw [← hv]; exact h6
  · by_cases c : n = N
    · exact Or.inl c
    · right
      refine ⟨by omega, ?_⟩
      rcases h1.2 with h5 | h5
      · exact absurd h5 (e.before n (by omega))
      · exact h5

/-- A value that is of the key is met by a probe before the first empty slot. -/
theorem Sound.met {F : Funs K V} (co : Coherent F) {k : Nat} {t : Table V} (g : Sound F k t)
    {key : K} {N : Nat} (e : Ends t (F.keyHash key % word) N) {j : Nat} {v : V}
    (hj : t.block[j]? = some (.live v)) (hs : F.same key v = true) :
    ∃ m, m < N ∧ probe t.size (F.keyHash key % word) m = j := by
  obtain ⟨n, hn, hp, hb⟩ := g.reach j v hj
  rw [← co key v hs] at hp hb
  refine ⟨n, ?_, hp⟩
  by_contra hc
  have : n = N ∨ N < n := by omega
  rcases this with h1 | h1
  · subst h1
    have := e.empty
    rw [hp, hj] at this
    simp at this
  · exact hb N h1 e.empty

theorem get_good {F : Funs K V} (co : Coherent F) {k : Nat} {t : Table V} (g : Good F k t)
    (key : K) :
    ∃ ix i, t.getFrom F key 0 = some (ix, i) ∧
      ((t.block[ix]? = some .empty ∧ ∀ v ∈ values t.block, F.same key v = false) ∨
        ∃ v, t.block[ix]? = some (.live v) ∧ F.same key v = true) := by
  obtain ⟨N, e⟩ := g.ends (F.keyHash key % word)
  obtain ⟨n, _, hN, h1, h2, h3⟩ := getFrom_eq g.toSound e (Nat.zero_le N)
  refine ⟨_, _, h1, ?_⟩
  rcases h3 with h3 | ⟨_, v, h3, h4⟩
  · left
    subst h3
    refine ⟨e.empty, ?_⟩
    intro v hv
    obtain ⟨j, hj⟩ := mem_values.mp hv
    cases hs : F.same key v
    · rfl
    · obtain ⟨m, hm, hp⟩ := g.toSound.met co e hj hs
      have := h2 m (Nat.zero_le _) hm v (by rw [hp]; exact hj)
      rw [hs] at this; exact this
  · exact Or.inr ⟨v, h3, h4⟩

/-! ## All values of a key -/

/-- The value of a slot, if it is of the key. -/
def pick (same : V → Bool) : Slot V → Option V
  | .live v => if same v then some v else none
  | _ => none

theorem filterMap_range {α β : Type} (l : List α) (f : α → Option β) :
    (List.range l.length).filterMap (fun j => l[j]?.bind f) = l.filterMap f := by
  induction l with
  | nil => rfl
  | cons x rest ih =>
    rw [List.length_cons, List.range_succ_eq_map, List.filterMap_cons, List.filterMap_map,
      List.filterMap_cons, ← ih]
    rfl

theorem filterMap_pick (same : V → Bool) (block : List (Slot V)) :
    block.filterMap (pick same) = (values block).filter same := by
  induction block with
  | nil => rfl
  | cons x rest ih =>
    cases x with
    | empty => exact ih
    | deleted => exact ih
    | live v =>
      have e : values (Slot.live v :: rest) = v :: values rest := rfl
      rw [e, List.filter_cons, ← ih, List.filterMap_cons]
      cases h : same v
      · simp [pick, h]
      · simp [pick, h]

theorem collect_eq {F : Funs K V} {k : Nat} {t : Table V} (g : Sound F k t) {key : K} {N : Nat}
    (e : Ends t (F.keyHash key % word) N) : ∀ (fuel i : Nat), i ≤ N → N - i < fuel →
    t.collect F key fuel i = some ((List.range' i (N - i)).filterMap fun m =>
      t.block[probe t.size (F.keyHash key % word) m]?.bind (pick (F.same key))) := by
  intro fuel
  induction fuel with
  | zero => intro i _ h; omega
  | succ f ih =>
    intro i hi hf
    obtain ⟨n, h1, h2, h3, h4, h5⟩ := getFrom_eq g e hi
    have skip : (List.range' i (n - i)).filterMap (fun m =>
        t.block[probe t.size (F.keyHash key % word) m]?.bind (pick (F.same key))) = [] := by
      rw [List.filterMap_eq_nil_iff]
      intro m hm
      rw [List.mem_range'_1] at hm
      obtain ⟨x, hx⟩ := g.slot (F.keyHash key % word) m
      rw [hx]
      cases x with
      | empty => rfl
      | deleted => rfl
      | live v =>
        have := h4 m hm.1 (by omega) v hx
        simp [pick, this]
    have cut : List.range' i (N - i) = List.range' i (n - i) ++ List.range' n (N - n) := by
      have h6 : N - i = (n - i) + (N - n) := by omega
      have h7 : n = i + 1 * (n - i) := by omega
      rw [h6]
      conv => rhs; rw [show List.range' n (N - n) = List.range' (i + 1 * (n - i)) (N - n) by
        rw [← h7]]
      rw [List.range'_append]
    rw [cut, List.filterMap_append, skip, List.nil_append]
    unfold Table.collect
    rw [h3]
    simp only
    rcases h5 with h5 | ⟨h5, v, h6, h7⟩
    · subst h5
      rw [e.empty]
      simp
    · rw [h6]
      simp only
      rw [ih (n + 1) (by omega) (by omega)]
      have h8 : N - n = (N - (n + 1)) + 1 := by omega
      rw [h8, List.range'_succ, List.filterMap_cons, h6]
      simp [pick, h7]

theorem all_good {F : Funs K V} (co : Coherent F) {k : Nat} {t : Table V} (g : Good F k t)
    (key : K) :
    ∃ l, t.all F key = some l ∧ l.Perm ((values t.block).filter (F.same key)) := by
  obtain ⟨N, e⟩ := g.ends (F.keyHash key % word)
  set h := F.keyHash key % word with hh
  have h1 := collect_eq g.toSound e (t.size + 1) 0 (Nat.zero_le _) (by have := e.lt; omega)
  refine ⟨_, h1, ?_⟩
  rw [← filterMap_pick, ← filterMap_range t.block, g.len, ← hh]
  have e2 : (List.range' 0 (N - 0)).filterMap (fun m =>
      t.block[probe t.size h m]?.bind (pick (F.same key))) =
      ((List.range N).map (probe t.size h)).filterMap (fun j =>
        t.block[j]?.bind (pick (F.same key))) := by
    rw [List.filterMap_map, List.range_eq_range']
    rfl
  rw [e2]
  have nd : ((List.range N).map (probe t.size h)).Nodup := by
    refine List.Nodup.map_on ?_ List.nodup_range
    intro a ha b hb hab
    rw [List.mem_range] at ha hb
    have := e.lt
    rw [g.size] at hab this
    exact probe_inj (by omega) (by omega) hab
  have sub : (List.range N).map (probe t.size h) ⊆ List.range t.size := by
    intro j hj
    obtain ⟨m, _, rfl⟩ := List.mem_map.mp hj
    rw [List.mem_range]
    exact probe_lt g.pos h m
  obtain ⟨l, hl1, hl2⟩ := List.subperm_of_subset nd sub
  obtain ⟨rest, hperm1⟩ := hl2.exists_perm_append
  have hperm := hperm1.trans (hl1.append_right rest)
  refine List.Perm.trans ?_ (hperm.filterMap _).symm
  rw [List.filterMap_append]
  have none : rest.filterMap (fun j => t.block[j]?.bind (pick (F.same key))) = [] := by
    rw [List.filterMap_eq_nil_iff]
    intro j hj
    cases hx : t.block[j]? with
    | none => rfl
    | some x =>
      cases x with
      | empty => rfl
      | deleted => rfl
      | live v =>
        cases hs : F.same key v with
        | false => simp [pick, hs]
        | true =>
          obtain ⟨m, hm, hp⟩ := g.toSound.met co e hx hs
          have nd2 : ((List.range N).map (probe t.size h) ++ rest).Nodup :=
            hperm.nodup_iff.mp List.nodup_range
          have := List.disjoint_of_nodup_append nd2
            (List.mem_map.mpr ⟨m, List.mem_range.mpr hm, hp⟩) hj
          exact this.elim
  rw [none, List.append_nil]

/-! ## Deleting -/

theorem remove_good {F : Funs K V} (co : Coherent F) {k : Nat} {t : Table V} (g : Good F k t)
    (key : K) :
    ∃ r t', t.remove F key = some (r, t') ∧ Good F k t' ∧ t'.size = t.size ∧
      ((r = none ∧ t' = t ∧ ∀ v ∈ values t.block, F.same key v = false) ∨
        ∃ v, r = some v ∧ F.same key v = true ∧ (values t.block).Perm (v :: values t'.block)) := by
  obtain ⟨ix, i, h1, h2⟩ := get_good co g key
  unfold Table.remove
  rw [h1]
  simp only [Option.map_some]
  rcases h2 with ⟨h2, h3⟩ | ⟨v, h2, h3⟩
  · rw [h2]
    exact ⟨_, _, rfl, g, rfl, Or.inl ⟨rfl, rfl, h3⟩⟩
  · rw [h2]
    exact ⟨_, _, rfl, delete_good g h2, rfl, Or.inr ⟨v, rfl, h3, values_set_deleted h2⟩⟩

/-- What happens to a slot when the values of a key are deleted. -/
def kill (same p : V → Bool) : Slot V → Slot V
  | .live v => if same v && p v then .deleted else .live v
  | x => x

theorem kill_empty {same p : V → Bool} {x : Slot V} : kill same p x = .empty ↔ x = .empty := by
  cases x with
  | empty => simp [kill]
  | deleted => simp [kill]
  | live v => simp only [kill]; split <;> simp

theorem Ends.kill_set {t : Table V} {h N : Nat} (e : Ends t h N) {ix : Nat} {v : V}
    (hx : t.block[ix]? = some (.live v)) (o : Nat) :
    Ends { t with occ := o, block := t.block.set ix .deleted } h N := by
  refine ⟨e.lt, ?_, ?_⟩
  · simp only
    rw [List.getElem?_set]
    split
    · rename_i c
      have := e.empty
      rw [← c, hx] at this
      simp at this
    · exact e.empty
  · intro m hm
    simp only
    rw [List.getElem?_set]
    split
    · split <;> simp
    · exact e.before m hm

theorem deleteLoop_eq {F : Funs K V} {key : K} {p : V → Bool} {N k : Nat} :
    ∀ (fuel i : Nat) (t : Table V), Good F k t → Ends t (F.keyHash key % word) N → i ≤ N →
    N - i < fuel →
    ∃ t', Table.deleteLoop F key p fuel i t = some t' ∧ Good F k t' ∧ t'.size = t.size ∧
      ∀ j, (t'.block[j]? = t.block[j]? ∨ t'.block[j]? = (t.block[j]?).map (kill (F.same key) p)) ∧
        ((∃ m, i ≤ m ∧ m < N ∧ probe t.size (F.keyHash key % word) m = j) →
          t'.block[j]? = (t.block[j]?).map (kill (F.same key) p)) := by
  intro fuel
  induction fuel with
  | zero => intro i t _ _ _ h; omega
  | succ f ih =>
    intro i t g e hi hf
    obtain ⟨n, h1, h2, h3, h4, h5⟩ := getFrom_eq g.toSound e hi
    set h := F.keyHash key % word with hh
    have skip : ∀ m, i ≤ m → m < n → ∀ x, t.block[probe t.size h m]? = some x →
        kill (F.same key) p x = x := by
      intro m hm1 hm2 x hx
      cases x with
      | empty => rfl
      | deleted => rfl
      | live v =>
        have := h4 m hm1 hm2 v hx
        simp [kill, this]
    have idem : ∀ y : Slot V, kill (F.same key) p (kill (F.same key) p y) =
        kill (F.same key) p y := by
      intro y
      cases y with
      | empty => rfl
      | deleted => rfl
      | live w =>
        cases hc : F.same key w && p w
        · simp [kill, hc]
        · simp [kill, hc]
    unfold Table.deleteLoop
    rw [h3]
    simp only
    rcases h5 with h5 | ⟨h5, v, h6, h7⟩
    · subst h5
      rw [e.empty]
      refine ⟨t, rfl, g, rfl, ?_⟩
      intro j
      refine ⟨Or.inl rfl, ?_⟩
      rintro ⟨m, hm1, hm2, hm3⟩
      obtain ⟨x, hx⟩ := g.toSound.slot h m
      have h6 := skip m hm1 hm2 x hx
      rw [hm3] at hx
      rw [hx]
      simp [h6]
    · rw [h6]
      simp only
      obtain ⟨t1, ht1⟩ : ∃ t1, t1 = (if p v then
        { t with occ := t.occ - 1,
                 block := t.block.set (probe t.size h n) Slot.deleted } else t) := ⟨_, rfl⟩
      rw [← ht1]
      have g1 : Good F k t1 := by
        rw [ht1]; split
        · exact delete_good g h6
        · exact g
      have e1 : Ends t1 h N := by
        rw [ht1]; split
        · exact e.kill_set h6 _
        · exact e
      have s1 : t1.size = t.size := by rw [ht1]; split <;> rfl
      have b1 : ∀ j, t1.block[j]? = if probe t.size h n = j then
          (t.block[j]?).map (kill (F.same key) p) else t.block[j]? := by
        intro j
        rw [ht1]
        by_cases hp : p v = true
        · rw [if_pos hp]
          simp only
          rw [List.getElem?_set]
          split
          · rename_i c
            have hl := (List.getElem?_eq_some_iff.mp h6).1
            rw [if_pos hl, ← c, h6]
            simp [kill, h7, hp]
          · rfl
        · rw [if_neg hp]
          split
          · rename_i c
            rw [← c, h6]
            simp [kill, h7, hp]
          · rfl
      obtain ⟨t2, e2, g2, s2, b2⟩ := ih (n + 1) t1 g1 e1 (by omega) (by omega)
      refine ⟨t2, e2, g2, by omega, ?_⟩
      intro j
      obtain ⟨c1, c2⟩ := b2 j
      have b1j := b1 j
      rw [s1] at c2
      have step : t2.block[j]? = t.block[j]? ∨
          t2.block[j]? = (t.block[j]?).map (kill (F.same key) p) := by
        by_cases hj : probe t.size h n = j
        · rw [if_pos hj] at b1j
          right
          rcases c1 with c1 | c1
          · rw [c1, b1j]
          · rw [c1, b1j]
            cases t.block[j]? with
            | none => rfl
            | some y => simp [idem]
        · rw [if_neg hj] at b1j
          rw [b1j] at c1
          exact c1
      refine ⟨step, ?_⟩
      rintro ⟨m, hm1, hm2, hm3⟩
      by_cases lt : m < n
      · obtain ⟨x, hx⟩ := g.toSound.slot h m
        have h8 := skip m hm1 lt x hx
        rw [hm3] at hx
        rcases step with h9 | h9
        · rw [h9, hx]; simp [h8]
        · exact h9
      · by_cases eq : m = n
        · subst eq
          rw [if_pos hm3] at b1j
          rcases c1 with c1 | c1
          · rw [c1, b1j]
          · rw [c1, b1j]
            cases t.block[j]? with
            | none => rfl
            | some y => simp [idem]
        · have c3 := c2 ⟨m, by omega, hm2, hm3⟩
          by_cases hj : probe t.size h n = j
          · rw [if_pos hj] at b1j
            rw [c3, b1j]
            cases t.block[j]? with
            | none => rfl
            | some y => simp [idem]
          · rw [if_neg hj] at b1j
            rw [c3, b1j]

theorem values_kill (same p : V → Bool) (block : List (Slot V)) :
    values (block.map (kill same p)) = (values block).filter fun v => !(same v && p v) := by
  induction block with
  | nil => rfl
  | cons x rest ih =>
    cases x with
    | empty => exact ih
    | deleted => exact ih
    | live v =>
      have e : values (Slot.live v :: rest) = v :: values rest := rfl
      rw [e, List.map_cons, List.filter_cons, ← ih]
      simp only [kill]
      cases h : same v && p v
      · rfl
      · rfl

theorem deleteAll_good {F : Funs K V} (co : Coherent F) {k : Nat} {t : Table V} (g : Good F k t)
    (key : K) (p : V → Bool) :
    ∃ t', t.deleteAll F key p = some t' ∧ Good F k t' ∧ t'.size = t.size ∧
      values t'.block = (values t.block).filter fun v => !(F.same key v && p v) := by
  obtain ⟨N, e⟩ := g.ends (F.keyHash key % word)
  obtain ⟨t', h1, h2, h3, h4⟩ := deleteLoop_eq (p := p) (t.size + 1) 0 t g e (Nat.zero_le _)
    (by have := e.lt; omega)
  refine ⟨t', h1, h2, h3, ?_⟩
  rw [← values_kill]
  congr 1
  apply List.ext_getElem?
  intro j
  rw [List.getElem?_map]
  obtain ⟨c1, c2⟩ := h4 j
  rcases c1 with c1 | c1
  · by_cases met : ∃ m, 0 ≤ m ∧ m < N ∧ probe t.size (F.keyHash key % word) m = j
    · exact c2 met
    · rw [c1]
      cases hx : t.block[j]? with
      | none => rfl
      | some x =>
        cases x with
        | empty => rfl
        | deleted => rfl
        | live v =>
          cases hs : F.same key v with
          | false => simp [kill, hs]
          | true =>
            obtain ⟨m, hm, hp⟩ := g.toSound.met co e hx hs
            exact absurd ⟨m, Nat.zero_le _, hm, hp⟩ met
  · exact c1

end Verif.Zval
