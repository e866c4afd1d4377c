import Verif.Zval.Model
import Mathlib.Data.Nat.ModEq
import Mathlib.Data.Fintype.EquivFin
import Mathlib.Data.List.Perm.Basic
import Mathlib.Tactic.Ring

/-! # Lemmas about the hash tables -/

namespace Verif.Zval

variable {K V : Type}

/-! ## The sequence of probes -/

/-- The position of the probe `n`. -/
def probe (s h n : Nat) : Nat := (h + n * (h ||| 1)) % s

theorem advance_probe {s : Nat} (hs : s ∣ word) (h n : Nat) :
    advance s (h ||| 1) (probe s h n) = probe s h (n + 1) := by
  unfold advance probe
  rw [Nat.mod_mod_of_dvd _ hs, Nat.mod_add_mod]
  congr 1
  ring

theorem start_probe {s : Nat} (hs : s ∣ word) (h i : Nat) :
    (h + i * (h ||| 1)) % word % s = probe s h i := by
  unfold probe
  rw [Nat.mod_mod_of_dvd _ hs]

theorem start_probe_zero (s h : Nat) : h % s = probe s h 0 := by
  simp [probe]

theorem probe_lt {s : Nat} (hs : 0 < s) (h n : Nat) : probe s h n < s := Nat.mod_lt _ hs

theorem odd_step (h : Nat) : (h ||| 1) % 2 = 1 := by
  rw [Nat.or_mod_two_eq_one]
  right; rfl

theorem probe_inj {k h m n : Nat} (hm : m < 2 ^ k) (hn : n < 2 ^ k)
    (e : probe (2 ^ k) h m = probe (2 ^ k) h n) : m = n := by
  unfold probe at e
  have e1 : m * (h ||| 1) ≡ n * (h ||| 1) [MOD 2 ^ k] := Nat.ModEq.add_left_cancel' h e
  have cop : Nat.gcd (2 ^ k) (h ||| 1) = 1 := by
    apply Nat.Coprime.pow_left
    have := odd_step h
    show Nat.gcd 2 (h ||| 1) = 1
    rw [Nat.gcd_rec, this]
    rfl
  have e2 : m ≡ n [MOD 2 ^ k] := Nat.ModEq.cancel_right_of_coprime cop e1
  rwa [Nat.ModEq, Nat.mod_eq_of_lt hm, Nat.mod_eq_of_lt hn] at e2

theorem probe_surj (k h : Nat) {j : Nat} (hj : j < 2 ^ k) :
    ∃ n, n < 2 ^ k ∧ probe (2 ^ k) h n = j := by
  have pos : 0 < 2 ^ k := Nat.two_pow_pos k
  let f : Fin (2 ^ k) → Fin (2 ^ k) := fun n => ⟨probe (2 ^ k) h n, probe_lt pos h n⟩
  have inj : Function.Injective f := by
    intro a b e
    have : probe (2 ^ k) h a = probe (2 ^ k) h b := congrArg Fin.val e
    exact Fin.ext (probe_inj a.2 b.2 this)
  obtain ⟨n, hn⟩ := (Finite.injective_iff_surjective.mp inj) ⟨j, hj⟩
  exact ⟨n, n.2, congrArg Fin.val hn⟩

/-! ## The loops -/

theorem findFree_eq {block : List (Slot V)} {s h : Nat} (hs : s ∣ word) (n : Nat) :
    ∀ (fuel i : Nat), i ≤ n → n - i < fuel →
      (∀ m, i ≤ m → m < n → ∃ v, block[probe s h m]? = some (.live v)) →
      (block[probe s h n]? = some .empty ∨ block[probe s h n]? = some .deleted) →
      findFree block s (h ||| 1) fuel (probe s h i) = some (probe s h n) := by
  intro fuel
  induction fuel with
  | zero => intro i _ h2; omega
  | succ f ih =>
    intro i hi hf busy free
    by_cases e : i = n
    · subst e
      unfold findFree
      rcases free with h1 | h1 <;> rw [h1]
    · obtain ⟨v, hv⟩ := busy i (Nat.le_refl _) (by omega)
      unfold findFree
      rw [hv]
      simp only
      rw [advance_probe hs]
      exact ih (i + 1) (by omega) (by omega) (fun m h1 h2 => busy m (by omega) h2) free

theorem scan_eq {same : V → Bool} {block : List (Slot V)} {s h : Nat} (hs : s ∣ word) (n : Nat) :
    ∀ (fuel i : Nat), i ≤ n → n - i < fuel →
      (∀ m, i ≤ m → m < n → block[probe s h m]? = some .deleted ∨
        ∃ v, block[probe s h m]? = some (.live v) ∧ same v = false) →
      (block[probe s h n]? = some .empty ∨
        ∃ v, block[probe s h n]? = some (.live v) ∧ same v = true) →
      scan same block s (h ||| 1) fuel (probe s h i) i = some (probe s h n, n) := by
  intro fuel
  induction fuel with
  | zero => intro i _ h2; omega
  | succ f ih =>
    intro i hi hf pass stop
    by_cases e : i = n
    · subst e
      unfold scan
      rcases stop with h1 | ⟨v, h1, h2⟩
      · rw [h1]
      · rw [h1]; simp [h2]
    · have step := ih (i + 1) (by omega) (by omega) (fun m h1 h2 => pass m (by omega) h2) stop
      unfold scan
      rcases pass i (Nat.le_refl _) (by omega) with h1 | ⟨v, h1, h2⟩
      · rw [h1]
        simp only
        rw [advance_probe hs]
        exact step
      · rw [h1]
        simp only [h2]
        rw [advance_probe hs]
        exact step

/-! ## What is stored -/

/-- Is the slot not `NULL_ZVALUE`? -/
def Slot.used : Slot V → Bool
  | .empty => false
  | _ => true

/-- The values of a block. -/
def values (block : List (Slot V)) : List V := block.filterMap Slot.value

theorem set_split {α : Type} {l : List α} {i : Nat} {x : α} (h : l[i]? = some x) (y : α) :
    l = l.take i ++ x :: l.drop (i + 1) ∧ l.set i y = l.take i ++ y :: l.drop (i + 1) := by
  obtain ⟨hi, hx⟩ := List.getElem?_eq_some_iff.mp h
  constructor
  · rw [← hx, List.cons_getElem_drop_succ, List.take_append_drop]
  · rw [List.set_eq_take_append_cons_drop, if_pos hi]

theorem values_set_live {block : List (Slot V)} {i : Nat} {x : Slot V}
    (h : block[i]? = some x) (hx : x.value = none) (v : V) :
    (values (block.set i (.live v))).Perm (v :: values block) := by
  obtain ⟨h1, h2⟩ := set_split h (.live v)
  rw [h2]
  conv => rhs; rw [h1]
  have e : Slot.value (Slot.live v) = some v := rfl
  simp only [values, List.filterMap_append, List.filterMap_cons, hx, e]
  exact List.perm_middle

theorem values_set_deleted {block : List (Slot V)} {i : Nat} {v : V}
    (h : block[i]? = some (.live v)) :
    (values block).Perm (v :: values (block.set i .deleted)) := by
  obtain ⟨h1, h2⟩ := set_split h .deleted
  rw [h2]
  conv => lhs; rw [h1]
  simp only [values, List.filterMap_append, List.filterMap_cons, Slot.value]
  exact List.perm_middle

theorem values_set_change {block : List (Slot V)} {i : Nat} {v : V}
    (h : block[i]? = some (.live v)) (w : V) :
    ∃ rest, (values block).Perm (v :: rest) ∧ (values (block.set i (.live w))).Perm (w :: rest) := by
  obtain ⟨h1, h2⟩ := set_split h (.live w)
  refine ⟨values (block.take i) ++ values (block.drop (i + 1)), ?_, ?_⟩
  · conv => lhs; rw [h1]
    simp only [values, List.filterMap_append, List.filterMap_cons, Slot.value]
    exact List.perm_middle
  · rw [h2]
    simp only [values, List.filterMap_append, List.filterMap_cons, Slot.value]
    exact List.perm_middle

theorem mem_values {block : List (Slot V)} {v : V} :
    v ∈ values block ↔ ∃ j : Nat, block[j]? = some (Slot.live v) := by
  unfold values
  rw [List.mem_filterMap]
  constructor
  · rintro ⟨x, hx, hv⟩
    obtain ⟨j, hj⟩ := List.mem_iff_getElem?.mp hx
    cases x with
    | empty => simp [Slot.value] at hv
    | deleted => simp [Slot.value] at hv
    | live w =>
      simp only [Slot.value, Option.some.injEq] at hv
      subst hv
      exact ⟨j, hj⟩
  · rintro ⟨j, hj⟩
    exact ⟨_, List.mem_iff_getElem?.mpr ⟨j, hj⟩, rfl⟩

theorem values_replicate (n : Nat) : values (List.replicate n (Slot.empty : Slot V)) = [] := by
  unfold values
  rw [List.filterMap_eq_nil_iff]
  intro a ha
  rw [List.eq_of_mem_replicate ha]
  rfl

/-! ## The invariant -/

/-- The condition for the two hash functions of a table: a key that is of a
value has the hash of the value. -/
def Coherent (F : Funs K V) : Prop :=
  ∀ k v, F.same k v = true → F.keyHash k % word = F.valHash v % word

/-- What holds of the block of a table of the size `2 ^ k`. -/
structure Sound (F : Funs K V) (k : Nat) (t : Table V) : Prop where
  size : t.size = 2 ^ k
  small : k ≤ 31
  len : t.block.length = t.size
  reach : ∀ j v, t.block[j]? = some (.live v) → ∃ n, n < t.size ∧
    probe t.size (F.valHash v % word) n = j ∧
    ∀ m, m < n → t.block[probe t.size (F.valHash v % word) m]? ≠ some .empty

/-- What holds of a table between calls. -/
structure Good (F : Funs K V) (k : Nat) (t : Table V) : Prop extends Sound F k t where
  occ : t.occ = (values t.block).length
  half : t.occ ≤ t.size / 2
  count : t.block.countP Slot.used ≤ t.occDel
  room : t.block.countP Slot.used < t.size

theorem Sound.dvd {F : Funs K V} {k : Nat} {t : Table V} (g : Sound F k t) : t.size ∣ word := by
  rw [g.size]
  exact Nat.pow_dvd_pow 2 (by have := g.small; omega)

theorem Sound.pos {F : Funs K V} {k : Nat} {t : Table V} (g : Sound F k t) : 0 < t.size := by
  rw [g.size]; exact Nat.two_pow_pos k

theorem Sound.slot {F : Funs K V} {k : Nat} {t : Table V} (g : Sound F k t) (h n : Nat) :
    ∃ x, t.block[probe t.size h n]? = some x := by
  have : probe t.size h n < t.block.length := by rw [g.len]; exact probe_lt g.pos h n
  exact ⟨_, List.getElem?_eq_getElem this⟩

theorem exists_empty {block : List (Slot V)} (h : block.countP Slot.used < block.length) :
    ∃ j, j < block.length ∧ block[j]? = some .empty := by
  classical
  by_contra hc
  have all : ∀ x ∈ block, x.used = true := by
    intro x hx
    obtain ⟨j, hj⟩ := List.mem_iff_getElem?.mp hx
    cases x with
    | empty =>
      obtain ⟨hl, _⟩ := List.getElem?_eq_some_iff.mp hj
      exact absurd ⟨j, hl, hj⟩ hc
    | deleted => rfl
    | live v => rfl
  rw [List.countP_eq_length.mpr all] at h
  omega

/-- The number of the first probe that meets an empty slot. -/
theorem Sound.first_empty {F : Funs K V} {k : Nat} {t : Table V} (g : Sound F k t)
    (room : t.block.countP Slot.used < t.size) (h : Nat) :
    ∃ N, N < t.size ∧ t.block[probe t.size h N]? = some .empty ∧
      ∀ m, m < N → t.block[probe t.size h m]? ≠ some .empty := by
  classical
  rw [← g.len] at room
  obtain ⟨j, hj, hE⟩ := exists_empty room
  rw [g.len, g.size] at hj
  obtain ⟨n, hn, hp⟩ := probe_surj k h hj
  have ex : ∃ n, t.block[probe t.size h n]? = some .empty := ⟨n, by rw [g.size, hp]; exact hE⟩
  refine ⟨Nat.find ex, ?_, Nat.find_spec ex, fun m hm => Nat.find_min ex hm⟩
  have : Nat.find ex ≤ n := Nat.find_min' ex (by rw [g.size, hp]; exact hE)
  have := g.size
  omega

/-! ## Putting -/

theorem putRaw_sound {F : Funs K V} {k : Nat} {t : Table V} (g : Sound F k t)
    (room : t.block.countP Slot.used < t.size) (v : V) :
    ∃ t', t.putRaw F v = some t' ∧ Sound F k t' ∧ t'.size = t.size ∧ t'.occ = t.occ ∧
      (values t'.block).Perm (v :: values t.block) ∧
      t'.block.countP Slot.used ≤ t.block.countP Slot.used + 1 ∧
      t'.block.countP Slot.used + t.occDel ≤ t.block.countP Slot.used + t'.occDel := by
  classical
  obtain ⟨N, hN, hE, hb⟩ := g.first_empty room (F.valHash v % word)
  set h := F.valHash v % word with hh
  have ex : ∃ n, t.block[probe t.size h n]? = some .empty ∨
      t.block[probe t.size h n]? = some .deleted := ⟨N, Or.inl hE⟩
  obtain ⟨n, hn⟩ : ∃ n, n = Nat.find ex := ⟨_, rfl⟩
  have hfree := Nat.find_spec ex
  have hmin := fun m (hm : m < Nat.find ex) => Nat.find_min ex hm
  have hle : Nat.find ex ≤ N := Nat.find_min' ex (Or.inl hE)
  rw [← hn] at hfree hmin hle
  have busy : ∀ m, 0 ≤ m → m < n → ∃ v, t.block[probe t.size h m]? = some (.live v) := by
    intro m _ hm
    obtain ⟨x, hx⟩ := g.slot h m
    have := hmin m hm
    rw [hx] at this
    cases x with
    | empty => simp at this
    | deleted => simp at this
    | live w => exact ⟨w, hx⟩
  have loop := findFree_eq g.dvd n t.size 0 (Nat.zero_le _) (by omega) busy hfree
  rw [← start_probe_zero] at loop
  have hlt : probe t.size h n < t.block.length := by rw [g.len]; exact probe_lt g.pos h n
  obtain ⟨x, hx, hxv⟩ : ∃ x, t.block[probe t.size h n]? = some x ∧ x.value = none := by
    rcases hfree with h1 | h1
    · exact ⟨_, h1, rfl⟩
    · exact ⟨_, h1, rfl⟩
  unfold Table.putRaw
  rw [if_neg (by have := g.pos; omega)]
  simp only [← hh]
  rw [loop]
  refine ⟨_, rfl, ?_, rfl, rfl, ?_, ?_, ?_⟩
  · refine ⟨g.size, g.small, by simpa using g.len, ?_⟩
    intro j w hj
    simp only at hj ⊢
    by_cases e : probe t.size h n = j
    · rw [List.getElem?_set, if_pos e, if_pos hlt] at hj
      simp only [Option.some.injEq, Slot.live.injEq] at hj
      subst hj
      refine ⟨n, by omega, e, ?_⟩
      intro m hm
      obtain ⟨w, hw⟩ := busy m (Nat.zero_le _) hm
      rw [List.getElem?_set]
      split
      · simp
      · rw [hw]; simp
    · rw [List.getElem?_set, if_neg e] at hj
      obtain ⟨i, hi, hp, hi2⟩ := g.reach j w hj
      refine ⟨i, hi, hp, ?_⟩
      intro m hm
      rw [List.getElem?_set]
      split
      · simp
      · exact hi2 m hm
  · exact values_set_live hx hxv v
  · simp only
    rw [List.countP_set hlt]
    have : t.block[probe t.size h n] = x := by
      have := List.getElem?_eq_some_iff.mp hx
      exact this.2
    rw [this]
    simp only [Slot.used]
    split <;> simp <;> omega
  · simp only
    rw [List.countP_set hlt]
    have e : t.block[probe t.size h n] = x := (List.getElem?_eq_some_iff.mp hx).2
    rw [e, hx]
    cases x with
    | empty => simp [Slot.used]; omega
    | deleted =>
      have pos : 0 < t.block.countP Slot.used := by
        rw [List.countP_pos_iff]
        exact ⟨_, List.mem_iff_getElem?.mpr ⟨_, hx⟩, rfl⟩
      simp [Slot.used]; omega
    | live w => simp [Slot.value] at hxv

theorem countP_replicate_empty (n : Nat) :
    (List.replicate n (Slot.empty : Slot V)).countP Slot.used = 0 := by
  rw [List.countP_eq_zero]
  intro a ha
  rw [List.eq_of_mem_replicate ha]
  simp [Slot.used]

theorem sound_fresh (F : Funs K V) {k : Nat} (hk : k ≤ 31) (o od : Nat) :
    Sound F k { size := 2 ^ k, occ := o, occDel := od,
                block := List.replicate (2 ^ k) (Slot.empty : Slot V) } := by
  refine ⟨rfl, hk, by simp, ?_⟩
  intro j v hj
  have := List.mem_iff_getElem?.mpr ⟨j, hj⟩
  have := List.eq_of_mem_replicate this
  simp at this

theorem rehash_sound {F : Funs K V} {k : Nat} : ∀ (old : List (Slot V)) (t : Table V),
    Sound F k t → t.block.countP Slot.used + (values old).length < t.size →
    ∃ t', rehash F old t = some t' ∧ Sound F k t' ∧ t'.size = t.size ∧ t'.occ = t.occ ∧
      (values t'.block).Perm (values old ++ values t.block) ∧
      t'.block.countP Slot.used ≤ t.block.countP Slot.used + (values old).length := by
  intro old
  induction old with
  | nil =>
    intro t g _
    exact ⟨t, rfl, g, rfl, rfl, List.Perm.refl _, by simp [values]⟩
  | cons x rest ih =>
    intro t g room
    cases x with
    | empty => exact ih t g room
    | deleted => exact ih t g room
    | live v =>
      have hl : (values (Slot.live v :: rest)).length = (values rest).length + 1 := rfl
      rw [hl] at room
      obtain ⟨t1, e1, g1, s1, o1, p1, c1, _⟩ := putRaw_sound g (by omega) v
      obtain ⟨t2, e2, g2, s2, o2, p2, c2⟩ := ih t1 g1 (by omega)
      refine ⟨t2, ?_, g2, by omega, by omega, ?_, by omega⟩
      · simp only [rehash, e1, Option.bind_some, e2]
      · have e : values (Slot.live v :: rest) = v :: values rest := rfl
        rw [e]
        refine p2.trans ?_
        exact (p1.append_left _).trans List.perm_middle

theorem resize_sound {F : Funs K V} {k k' : Nat} {t : Table V} (g : Sound F k t)
    (hk : k' ≤ 31) (room : (values t.block).length < 2 ^ k') :
    ∃ t', t.resize F (2 ^ k') = some t' ∧ Sound F k' t' ∧ t'.occ = t.occ ∧
      t'.occDel = t.occ ∧ (values t'.block).Perm (values t.block) ∧
      t'.block.countP Slot.used ≤ (values t.block).length := by
  obtain ⟨t1, e1, g1, s1, o1, p1, c1⟩ :=
    rehash_sound t.block _ (sound_fresh F hk t.occ t.occDel) (by
      simp only [countP_replicate_empty]; omega)
  simp only [countP_replicate_empty] at c1
  refine ⟨{ t1 with occDel := t1.occ }, ?_, ⟨g1.size, g1.small, g1.len, g1.reach⟩, o1, o1, ?_, by
    simpa using c1⟩
  · unfold Table.resize
    rw [e1]; rfl
  · simpa [values_replicate] using p1

theorem put_good {F : Funs K V} {k : Nat} {t : Table V} (g : Good F k t) (v : V)
    (fits : 2 * t.size < 2 ^ 31) :
    ∃ t' k', t.put F v = some t' ∧ Good F k' t' ∧ (values t'.block).Perm (v :: values t.block) ∧
      (t'.size = t.size ∨ t'.size = 2 * t.size ∧ t.size / 2 ≤ t.occ) := by
  have hsz := g.size
  have occ := g.occ
  have half := g.half
  have count := g.count
  have room := g.room
  have small := g.small
  have pos := g.pos
  have sound1 : Sound F k { t with occ := t.occ + 1 } := ⟨g.size, g.small, g.len, g.reach⟩
  have finish : ∀ (t2 : Table V) (k' : Nat), Sound F k' t2 → t2.occ = t.occ + 1 →
      (values t2.block).Perm (values t.block) → t2.block.countP Slot.used ≤ t2.occDel →
      t2.block.countP Slot.used + 1 < t2.size → t.occ + 1 ≤ t2.size / 2 →
      ∃ t', t2.putRaw F v = some t' ∧ Good F k' t' ∧
        (values t'.block).Perm (v :: values t.block) ∧ t'.size = t2.size := by
    intro t2 k' g2 o2 p2 c2 r2 h2
    obtain ⟨t3, e3, g3, s3, o3, p3, c3, d3⟩ := putRaw_sound g2 (by omega) v
    have p4 := p3.trans (p2.cons v)
    refine ⟨t3, e3, ⟨g3, ?_, ?_, ?_, ?_⟩, p4, s3⟩
    · rw [p4.length_eq, List.length_cons]; omega
    · rw [s3]; omega
    · omega
    · omega
  unfold Table.put
  by_cases c1 : t.occ ≥ t.size / 2
  · have e : 2 * t.size = 2 ^ (k + 1) := by rw [hsz, pow_succ]; ring
    have hk : k + 1 ≤ 31 := by
      by_contra hc
      have : 2 ^ 31 ≤ 2 ^ (k + 1) := Nat.pow_le_pow_right (by omega) (by omega)
      omega
    have hv : (values t.block).length < 2 ^ (k + 1) := by omega
    obtain ⟨t2, e2, g2, o2, d2, p2, c2⟩ := resize_sound sound1 hk hv
    simp only at o2 d2 p2 c2
    have hs2 : t2.size = 2 * t.size := by rw [g2.size, e]
    simp only [if_pos c1, if_pos fits]
    rw [e, e2, Option.bind_some]
    by_cases one : t.size = 1
    · have h0 : t.occ = 0 := by omega
      have hnil : (values t.block).length = 0 := by omega
      have hc0 : t2.block.countP Slot.used = 0 := by omega
      obtain ⟨t3, e3, g3, s3, o3, p3, c3, d3⟩ := putRaw_sound g2 (by omega) v
      have p4 := p3.trans (p2.cons v)
      refine ⟨t3, k + 1, e3, ⟨g3, ?_, ?_, ?_, ?_⟩, p4, Or.inr ⟨by omega, c1⟩⟩
      · rw [p4.length_eq, List.length_cons]; omega
      · rw [s3]; omega
      · omega
      · omega
    · obtain ⟨t3, e3, g3, p3, s3⟩ := finish t2 _ g2 o2 p2 (by omega) (by omega) (by omega)
      exact ⟨t3, _, e3, g3, p3, Or.inr ⟨by omega, c1⟩⟩
  · simp only [if_neg c1]
    by_cases c2 : t.occDel ≥ t.size - 1
    · simp only [if_pos c2]
      have hv : (values t.block).length < 2 ^ k := by omega
      obtain ⟨t2, e2, g2, o2, d2, p2, c3⟩ := resize_sound sound1 small hv
      simp only at o2 d2 p2 c3
      have e3 : Table.resize F { t with occ := t.occ + 1 } t.size = some t2 := by
        rw [← e2, ← hsz]
      rw [e3, Option.bind_some]
      have hs2 : t2.size = t.size := by rw [g2.size, hsz]
      obtain ⟨t3, e3, g3, p3, s3⟩ := finish t2 _ g2 o2 p2 (by omega) (by omega) (by omega)
      exact ⟨t3, _, e3, g3, p3, Or.inl (by omega)⟩
    · simp only [if_neg c2, Option.bind_some]
      obtain ⟨t3, e3, g3, p3, s3⟩ := finish { t with occ := t.occ + 1 } _ sound1 rfl
        (List.Perm.refl _) count (by simp only; omega) (by simp only; omega)
      exact ⟨t3, _, e3, g3, p3, Or.inl s3⟩

theorem good_generate (F : Funs K V) {k : Nat} (hk : k ≤ 31) : Good F k (generate V (2 ^ k)) := by
  have pos : 0 < 2 ^ k := Nat.two_pow_pos k
  refine ⟨sound_fresh F hk 0 0, ?_, Nat.zero_le _, ?_, ?_⟩
  · simp [generate, values_replicate]
  · simp [generate, countP_replicate_empty]
  · simp [generate, countP_replicate_empty]

end Verif.Zval
