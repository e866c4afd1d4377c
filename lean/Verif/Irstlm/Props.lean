import Verif.Irstlm.PoolLemmas
import Verif.Irstlm.StackLemmas
import Verif.Irstlm.Files
import Mathlib.Data.List.Permutation
import Mathlib.Tactic.FinCases

/-! # What pools, stacks of strings, hash tables and dictionaries do (C167-C174) -/

namespace Verif.Irstlm

open Verif.Server (decimal isSpace ascii)

/-! ## C167: pools of memory -/

/-- A pool with at least one item in a block can be made; without it, the constructor writes outside. -/
theorem C167_new (is bs : Nat) : (Pool.new is bs).isSome ↔ 0 < bs := by
  rcases Nat.eq_zero_or_pos bs with rfl | hb
  · rw [new_zero]; simp
  · obtain ⟨p, hp, _⟩ := new_inv (is := is) hb
    rw [hp]; simp [hb]

/-- There always is another item, it is not in use, and there is a new block only if all items are in use. -/
theorem C167_allocate {is bs p live} (h : Reach is bs p live) : ∃ a q, p.allocate = some (a, q) ∧ a ∉ live ∧
    q.blocknum = if live.length = p.blocknum * bs then p.blocknum + 1 else p.blocknum := by
  obtain ⟨fs, hi⟩ := reach_inv h
  obtain ⟨a, q, _, h1, _, h3, h4⟩ := allocate_inv hi
  exact ⟨a, q, h1, h3, h4⟩

/-- Items in use are inside the blocks, begin at multiples of 8 and do not overlap; the pool knows their number. -/
theorem C167_apart {is bs p live} (h : Reach is bs p live) :
    p.entries = live.length ∧ live.Nodup ∧
    (∀ a ∈ live, a.block < p.blocknum ∧ a.offset % 8 = 0 ∧ a.offset + is ≤ p.itemSize * bs) ∧
    ∀ a ∈ live, ∀ b ∈ live, a ≠ b → a.block ≠ b.block ∨ a.offset + is ≤ b.offset ∨ b.offset + is ≤ a.offset := by
  obtain ⟨fs, hi⟩ := reach_inv h
  have hle := roundUp_le is
  have hmem : ∀ a ∈ live, a.block < p.blocknum ∧ ∃ k < bs, a.offset = k * roundUp is := fun a ha =>
    mem_allSlots.1 (hi.perm.subset (by simp [ha]))
  refine ⟨hi.count, (List.nodup_append.1 hi.nodup).2.1, fun a ha => ?_, fun a ha b hb hab => ?_⟩
  · obtain ⟨h1, k, hk, ho⟩ := hmem a ha
    refine ⟨h1, ?_, ?_⟩
    · rw [ho, Nat.mul_mod, roundUp_mod]; simp
    · rw [ho, hi.size]
      have : (k + 1) * roundUp is ≤ bs * roundUp is := Nat.mul_le_mul_right _ hk
      rw [Nat.add_mul, Nat.one_mul] at this
      rw [Nat.mul_comm (roundUp is)]; omega
  · by_cases hbl : a.block = b.block
    · obtain ⟨_, k, _, ho⟩ := hmem a ha
      obtain ⟨_, j, _, hp⟩ := hmem b hb
      right
      have hkj : k ≠ j := by
        rintro rfl
        apply hab
        cases a; cases b
        simp only at hbl ho hp
        rw [hbl, ho, hp]
      rcases Nat.lt_or_gt_of_ne hkj with hlt | hlt
      · left
        have : (k + 1) * roundUp is ≤ j * roundUp is := Nat.mul_le_mul_right _ hlt
        rw [Nat.add_mul, Nat.one_mul] at this
        omega
      · right
        have : (j + 1) * roundUp is ≤ k * roundUp is := Nat.mul_le_mul_right _ hlt
        rw [Nat.add_mul, Nat.one_mul] at this
        omega
    · exact Or.inl hbl

/-- An item that is freed is the next one. -/
theorem C167_reuse {is bs p live a} (_ : Reach is bs p live) (_ : a ∈ live) :
    ∃ q, (p.free a).allocate = some (a, q) ∧ q.blocknum = p.blocknum := ⟨_, rfl, rfl⟩

/-- Freeing an item twice gives it to two owners. -/
theorem C167_doublefree {is bs p live a} (_ : Reach is bs p live) (_ : a ∈ live) :
    ∃ q r, ((p.free a).free a).allocate = some (a, q) ∧ q.allocate = some (a, r) := by
  simp [Pool.allocate, Pool.extend, Pool.free, store]

/-- A pool of items of 12 bytes (16 in the pool), two in a block: three are in use, one is given back. -/
example : ∃ p, Reach 12 2 p [⟨1, 0⟩, ⟨0, 0⟩] ∧ p.blocknum = 2 ∧ p.itemSize = 16 := by
  obtain ⟨p, hp⟩ : ∃ p, Pool.new 12 2 = some p := ⟨_, rfl⟩
  have h0 := Reach.start hp
  cases hp
  have h1 := h0.allocate (a := ⟨0, 0⟩) rfl
  have h2 := h1.allocate (a := ⟨0, 16⟩) rfl
  have h3 := h2.allocate (a := ⟨1, 0⟩) rfl
  have h4 := h3.free (a := ⟨0, 16⟩) (by decide)
  exact ⟨_, h4, rfl, rfl⟩

/-- Memory of any size up to the maximal one is not always given: sizes greater than the size of a block and the
size 0 are undefined. -/
theorem C167_storage_false : ¬ ∀ maxsize blocksize size, size ≤ maxsize →
    ((Storage.new maxsize blocksize).allocate size).isSome := by
  intro h
  have := h 10 5 6 (by decide)
  simp [Storage.allocate, Storage.new, Storage.pool, new_zero] at this

/-- For the other sizes memory is given, from the pool for this size. -/
theorem C167_storage_partial {maxsize blocksize size : Nat} (h1 : 0 < size) (h2 : size ≤ maxsize)
    (h3 : size ≤ blocksize) : ∃ a s, (Storage.new maxsize blocksize).allocate size = some (.pooled size a, s) := by
  obtain ⟨p, hp, hi⟩ := new_inv (is := size) (bs := blocksize / size) (Nat.div_pos h3 h1)
  obtain ⟨a, q, _, ha, _⟩ := allocate_inv hi
  refine ⟨a, (Storage.new maxsize blocksize).setPool size q, ?_⟩
  unfold Storage.allocate
  rw [if_pos (show size ≤ (Storage.new maxsize blocksize).setsize from h2)]
  have : (Storage.new maxsize blocksize).pool size = some p := by
    unfold Storage.pool
    simp only [Storage.new]
    rw [if_neg (by omega), hp]
  rw [this, Option.bind_some, ha]; rfl

example : ∃ a s, (Storage.new 10 100).allocate 7 = some (.pooled 7 a, s) :=
  C167_storage_partial (by decide) (by decide) (by decide)

/-- Large pieces of memory are never given back. -/
theorem C167_leak_false {s t : Storage} {size : Nat} {m : Memory} (h : s.setsize < size)
    (ha : s.allocate size = some (m, t)) : (t.free m size).system = s.newcalls :: s.system := by
  unfold Storage.allocate at ha
  rw [if_neg (by omega)] at ha
  cases ha
  unfold Storage.free
  simp only
  split
  · rename_i he; cases he
  · rfl

example : ∃ m t, (Storage.new 10 100).allocate 11 = some (m, t) ∧ m = .system 0 := ⟨_, _, rfl, rfl⟩

/-! ## C168: stacks of strings -/

/-- The strings on the stack are where the pointers point to, at different places. -/
theorem C168_read {size t l} (h : StackReach size t l) :
    (∀ a s, (a, s) ∈ l → t.read a = some s) ∧ (l.map Prod.fst).Nodup ∧ t.entries = l.length := by
  obtain ⟨bss, hi, rfl, he⟩ := stackReach_inv h
  exact ⟨fun a s hm => hi.read hm, pointers_nodup bss, he⟩

/-- A string is pushed unless it does not fit into a block. -/
theorem C168_push {size t l s} (h : StackReach size t l) (hc : CString s) :
    (∃ a u, t.push s = some (a, u)) ↔ s.length + 1 < size := by
  obtain ⟨bss, hi, _, _⟩ := stackReach_inv h
  constructor
  · rintro ⟨a, u, hp⟩
    by_contra hs
    rw [push_none hi (by omega)] at hp; cases hp
  · intro hs
    obtain ⟨a, u, _, h1, _⟩ := push_inv hi hc hs
    exact ⟨a, u, h1⟩

/-- An empty stack has no string on top. -/
theorem C168_empty {size t} (h : StackReach size t []) : t.top = none := by
  obtain ⟨bss, hi, hl, _⟩ := stackReach_inv h
  exact top_empty hi hl

/-- The last string is on top and is popped, if there are no empty strings and no string of one character at the
beginning of a block. -/
theorem C168_pop_partial {size t x l} (h : StackReach size t (x :: l)) (hs : Separable (x :: l)) :
    t.top = some x.1 ∧ t.pop.1 = some x.1 ∧ StackReach size t.pop.2 l := by
  obtain ⟨bss, hi, hl, _⟩ := stackReach_inv h
  obtain ⟨_, h1, h2, _⟩ := pop_inv hi hl hs
  exact ⟨h1, h2, .pop h hs⟩

theorem reach_ab : StackReach 10 ⟨10, [[97, 98, 0, 99, 0, 0, 0, 0, 0, 0]], 5, 2⟩ [(⟨0, 3⟩, [99]), (⟨0, 0⟩, [97, 98])] :=
  .push (.push .start (s := [97, 98]) (by unfold CString; decide) (by rfl)) (by unfold CString; decide) (by rfl)

/-- Two strings in a block of ten bytes. -/
example : StackReach 10 ⟨10, [[97, 98, 0, 99, 0, 0, 0, 0, 0, 0]], 5, 2⟩ [(⟨0, 3⟩, [99]), (⟨0, 0⟩, [97, 98])] ∧
    Separable [(⟨0, 3⟩, [99]), (⟨0, 0⟩, [97, 98])] := by
  refine ⟨reach_ab, ?_⟩
  unfold Separable; decide

/-- A string of one character at the beginning is not popped: the pointer that is returned points behind it. -/
theorem C168_pop_false : ¬ ∀ size t x l, StackReach size t (x :: l) → t.pop.1 = some x.1 := by
  intro h
  have h1 : StackReach 10 ⟨10, [[97, 0, 0, 0, 0, 0, 0, 0, 0, 0]], 2, 1⟩ [(⟨0, 0⟩, [97])] :=
    .push .start (by unfold CString; decide) (by rfl)
  have := h _ _ _ _ h1
  revert this; decide

/-- After popping from the empty stack nothing can be pushed. -/
theorem C168_emptied_false (size : Nat) (s : Str) : (Strstack.new size).pop.2.push s = none ∨
    size ≤ s.length + 1 := by
  by_cases h : size ≤ s.length + 1
  · exact Or.inr h
  · left
    have h1 : (Strstack.new size).pop.2 = ⟨size, [], 0, 0⟩ := rfl
    rw [h1]
    unfold Strstack.push Strstack.room
    simp only
    rw [if_neg (by omega), if_neg (by omega)]

/-! ## C169: hash tables -/

/-- After entering keys, the first key with a value is found, for every hash function; the number of keys is that
of the values. -/
theorem C169_find {V : Type} [DecidableEq V] (hash : V → Nat) (val : Nat → V) (ks : List Nat) {n : Nat} (hn : 0 < n) :
    ∃ t, enterAll hash val ks (.new n) = some t ∧
      (∀ v, t.find hash val v = some (ks.find? fun k => decide (val k = v))) ∧
      (∀ k, ∃ u, t.enter hash val k = some ((ks.find? fun j => decide (val j = val k)).getD k, u) ∧
        u.keys = if val k ∈ ks.map val then t.keys else t.keys + 1) ∧
      t.keys = (ks.map val).dedup.length := by
  obtain ⟨t, h1, _, h3⟩ := enterAll_inv ks (new_table_inv hash val hn)
  have h3 : TableInv hash val t (firsts val ks) := h3
  have hset : ∀ v, v ∈ (firsts val ks).map val ↔ v ∈ ks.map val := by
    intro v
    have := find?_firsts val ks v
    constructor
    · intro hv
      obtain ⟨k, hk, rfl⟩ := List.mem_map.1 hv
      exact List.mem_map_of_mem (mem_firsts hk)
    · intro hv
      obtain ⟨k, hk, rfl⟩ := List.mem_map.1 hv
      cases hf : ks.find? (fun j => decide (val j = val k)) with
      | none => exact absurd (List.find?_eq_none.1 hf k hk) (by simp)
      | some j =>
        rw [hf] at this
        have h4 := List.find?_some this
        have h5 := List.mem_of_find?_eq_some this
        simp only [decide_eq_true_eq] at h4
        rw [← h4]; exact List.mem_map_of_mem h5
  refine ⟨t, h1, fun v => by rw [h3.find, find?_firsts], fun k => ?_, ?_⟩
  · obtain ⟨j, u, h4, h5, _, h6⟩ := h3.enter k
    refine ⟨u, by rw [h4, h5, find?_firsts], ?_⟩
    rw [h6.count, h3.count]
    have hany : (firsts val ks).any (fun j => decide (val j = val k)) = decide (val k ∈ ks.map val) := by
      rw [Bool.eq_iff_iff, List.any_eq_true, decide_eq_true_eq, ← hset]
      simp [List.mem_map]
    rw [hany]
    by_cases hk : val k ∈ ks.map val
    · simp [hk]
    · simp [hk]
  · rw [h3.count, ← List.length_map (f := val)]
    refine List.Perm.length_eq ?_
    rw [List.perm_ext_iff_of_nodup h3.distinct (List.nodup_dedup _)]
    intro v
    rw [hset, List.mem_dedup]

/-- Scanning gives for each value its first key, each once, and then null pointers. -/
theorem C169_scan {V : Type} [DecidableEq V] (hash : V → Nat) (val : Nat → V) (ks : List Nat) {n : Nat} {t : Htable}
    (hn : 0 < n) (ht : enterAll hash val ks (.new n) = some t) :
    ∃ (s : Scan) (l : List Nat), t.scanInit = some s ∧ (l.map val).Nodup ∧
      (∀ k, k ∈ l ↔ ks.find? (fun j => decide (val j = val k)) = some k) ∧
      ∀ m, t.scanned m s = (l.map some ++ List.replicate m none).take m := by
  obtain ⟨t', h1, _, h3⟩ := enterAll_inv ks (new_table_inv hash val hn)
  rw [h1] at ht; cases ht
  have h3 : TableInv hash val t (firsts val ks) := h3
  obtain ⟨c, cs, hc⟩ : ∃ c cs, t.table = c :: cs := by
    refine List.exists_cons_of_ne_nil fun he => ?_
    have h4 := h3.len; have h5 := h3.pos
    rw [he] at h4; simp at h4; omega
  refine ⟨(0, c), t.table.flatten, by simp [Htable.scanInit, hc], ?_, fun k => ?_, fun m => ?_⟩
  · exact ((h3.perm.map val).nodup_iff).2 h3.distinct
  · rw [h3.perm.mem_iff, ← find?_firsts]
    constructor
    · intro hk; exact find?_distinct h3.distinct hk rfl
    · intro hk; exact List.mem_of_find?_eq_some hk
  · rw [scanned_eq h3.len]
    simp [rest, hc]

/-- A table without chains divides by zero. -/
theorem C169_zero_false {V : Type} [DecidableEq V] (hash : V → Nat) (val : Nat → V) (v : V) :
    (Htable.new 0).find hash val v = none := rfl

/-- Three chains, five keys; the keys 0 and 3 have the same value. -/
example : (enterAll (fun v : Nat => v) (fun k => [5, 8, 1, 5, 0].getD k 0) [0, 1, 2, 3, 4] (.new 3)).map
      (fun t => (t.table, t.keys, t.find id (fun k => [5, 8, 1, 5, 0].getD k 0) 5, t.scanned 5 (0, [4]))) =
    some ([[4], [2], [0, 1]], 4, some (some 0), [some 4, some 2, some 0, some 1, none]) := by decide +kernel

/-! ## C170: codes of words -/

theorem isCode_place {d : Dict} {w c} : IsCode d w c ↔ place d.tb w = some c := place_some.symm

theorem known_place {d : Dict} {w : Str} : ¬ Known d w ↔ place d.tb w = none := by
  rw [place_none, Known, not_exists]
  constructor
  · intro h hm
    obtain ⟨e, he, rfl⟩ := List.mem_map.1 hm
    obtain ⟨c, hc, rfl⟩ := List.mem_iff_getElem.1 he
    exact h c (by simp [HasWord, hc])
  · intro h c hc
    unfold HasWord at hc
    obtain ⟨e, he, rfl⟩ := Option.map_eq_some_iff.1 hc
    exact h (List.mem_map_of_mem (List.mem_of_getElem? he))

/-- A word of the dictionary has its code, another one has none. -/
theorem C170_getcode {size : Nat} {d : Dict} (h5 : 5 ≤ size) (h : DictReach size d) (w : Str) :
    (∀ c, d.getcode w = .ok (some c) ↔ IsCode d w c) ∧ (d.getcode w = .ok none ↔ ¬ Known d w) := by
  have hi := dictReach_inv h5 h
  unfold Dict.getcode
  rw [hi.find]
  simp only
  rw [known_place]
  constructor
  · intro c
    rw [isCode_place]
    cases hp : place d.tb w with
    | none => simp
    | some k => simp [hi.codeAt_place hp]
  · cases hp : place d.tb w with
    | none => simp
    | some k => simp

/-- Words are there once, except for `<unk>`. -/
theorem C170_once {size : Nat} {d : Dict} (h5 : 5 ≤ size) (h : DictReach size d) {w : Str} {i j : Nat} (hw : w ≠ oov)
    (h1 : HasWord d i w) (h2 : HasWord d j w) : i = j := by
  have hd := (dictReach_inv h5 h).dist
  unfold HasWord at h1 h2
  rw [← List.getElem?_map] at h1 h2
  generalize d.tb.map Entry.word = ws at hd h1 h2
  have hc : ws.count w ≤ 1 := by
    have := List.nodup_iff_count_le_one.1 hd w
    rwa [List.count_filter (by simpa using hw)] at this
  by_contra hij
  have : ∀ (ws : List Str) (i j : Nat), i < j → ws[i]? = some w → ws[j]? = some w → 2 ≤ ws.count w := by
    intro ws i j hij h1 h2
    have e1 : w ∈ ws.take j := List.mem_of_getElem? (i := i) (by rw [List.getElem?_take, if_pos hij]; exact h1)
    have e2 : w ∈ ws.drop j := List.mem_of_getElem? (i := 0) (by rw [List.getElem?_drop]; exact h2)
    rw [← List.take_append_drop j ws, List.count_append]
    have := List.count_pos_iff.2 e1
    have := List.count_pos_iff.2 e2
    omega
  rcases Nat.lt_or_gt_of_ne hij with hlt | hlt
  · have := this ws i j hlt h1 h2; omega
  · have := this ws j i hlt h2 h1; omega

/-- A word of the dictionary is encoded as its code, and nothing changes. -/
theorem C170_known {size : Nat} {d : Dict} (h5 : 5 ≤ size) (h : DictReach size d) {w : Str} {c : Nat} (hw : w ≠ [])
    (hc : IsCode d w c) : d.encode w = .ok (c, d) := by
  refine encode_known (dictReach_inv h5 h) ?_ 1
  unfold clean; rw [if_neg hw]; exact isCode_place.1 hc

/-- In an open dictionary another word becomes the next entry, unless it is too long. -/
theorem C170_new {size : Nat} {d : Dict} (h5 : 5 ≤ size) (h : DictReach size d) {w : Str} (hw : w ≠ [])
    (ho : d.ifl = true) (hk : ¬ Known d w) :
    (w.length + 1 < size * 10 → ∃ e, d.encode w = .ok (d.tb.length, e) ∧ e.counts = d.counts ++ [(w, 0)] ∧
      e.total = d.total) ∧
    (size * 10 ≤ w.length + 1 → d.encode w = .error .exit) := by
  have hi := dictReach_inv h5 h
  have hst := (dictReach_sizes h).2.1
  have hcl : clean w = w := by unfold clean; rw [if_neg hw]
  constructor
  · intro hl
    obtain ⟨t, lim, h1, _⟩ := encode_new hi (w := w) (by rw [hcl]; exact known_place.1 hk) ho (by rw [hcl, hst]; exact hl) 1
    rw [hcl] at h1
    exact ⟨_, h1, by simp [Dict.counts], rfl⟩
  · intro hl
    exact encode_long hi (w := w) (by rw [hcl]; exact known_place.1 hk) ho (by rw [hcl, hst]; exact hl) 1

/-- Decoding gives the word with a code, and `<unk>` for numbers that are not codes. -/
theorem C170_decode (d : Dict) (c : Int) :
    (∀ w, 0 ≤ c → HasWord d c.toNat w → d.decode c = w) ∧
    ((c < 0 ∨ d.tb.length ≤ c) → d.decode c = ascii "<unk>") := by
  unfold Dict.decode HasWord
  constructor
  · intro w h0 hw
    have hlt : c.toNat < d.tb.length := by
      by_contra hge
      rw [List.getElem?_eq_none (by omega)] at hw; cases hw
    rw [if_pos ⟨h0, by omega⟩]
    unfold wordOf; rw [hw]; rfl
  · intro h
    rw [if_neg (by omega)]; rfl

/-- What is encoded with a known or new word is decoded again. -/
theorem C170_roundtrip {size : Nat} {d e : Dict} (h5 : 5 ≤ size) (h : DictReach size d) {w : Str} {c : Nat} (hw : w ≠ [])
    (hk : Known d w ∨ d.ifl = true) (he : d.encode w = .ok (c, e)) : e.decode c = w := by
  have hi := dictReach_inv h5 h
  have hst := (dictReach_sizes h).2.1
  have hcl : clean w = w := by unfold clean; rw [if_neg hw]
  refine (C170_decode e c).1 w (by omega) ?_
  rw [Int.toNat_natCast]
  cases hp : place d.tb w with
  | some k =>
    have := encode_known hi (w := w) (by rw [hcl]; exact hp) 1
    rw [show encodeLoop (1 + 1) d w = d.encode w from rfl, he] at this
    cases this
    exact (isCode_place.2 hp).1
  | none =>
    have ho : d.ifl = true := hk.resolve_left (fun hk => absurd hk (known_place.2 hp))
    by_cases hl : w.length + 1 < size * 10
    · obtain ⟨t, lim, h1, _⟩ := encode_new hi (w := w) (by rw [hcl]; exact hp) ho (by rw [hcl, hst]; exact hl) 1
      rw [show encodeLoop (1 + 1) d w = d.encode w from rfl, he] at h1
      cases h1
      simp [HasWord, hcl]
    · have h1 := encode_long hi (w := w) (by rw [hcl]; exact hp) ho (by rw [hcl, hst]; omega) 1
      rw [show encodeLoop (1 + 1) d w = d.encode w from rfl, he] at h1
      cases h1

/-- A dictionary for fewer than five words has a hash table without chains. -/
theorem C170_small_false {size : Nat} (h : size < 5) (w : Str) : (Dict.new size).getcode w = .error .undefined ∧
    (Dict.new size).encode w = .error .undefined := by
  have : size / 5 = 0 := by omega
  constructor
  · simp [Dict.getcode, Dict.find, Dict.new, Htable.find, Htable.new, this]
  · simp [Dict.encode, encodeLoop, Dict.find, Dict.new, Htable.find, Htable.new, this]

/-- An open dictionary for five words that has grown. -/
theorem reach_open : ∃ d, DictReach 5 d ∧ d.ifl = true ∧ d.counts = [([97], 0), ([98], 0), ([99], 0), ([100], 0), ([101], 0)] := by
  have step : ∀ {d : Dict} {w : Str}, DictReach 5 d → d.ifl = true → w ≠ [] → ¬ Known d w → w.length + 1 < 50 →
      ∃ e, DictReach 5 e ∧ e.ifl = true ∧ e.counts = d.counts ++ [(w, 0)] := by
    intro d w h ho hw hk hl
    have hi := dictReach_inv (le_refl 5) h
    have hcl : clean w = w := by unfold clean; rw [if_neg hw]
    obtain ⟨t, lim, h1, _⟩ := encode_new hi (w := w) (by rw [hcl]; exact known_place.1 hk) ho
      (by rw [hcl, (dictReach_sizes h).2.1]; exact hl) 1
    rw [hcl] at h1
    exact ⟨_, .encode h h1, ho, by simp [Dict.counts]⟩
  have kn : ∀ {d : Dict} {w : Str} {l}, d.counts = l → w ∉ l.map Prod.fst → ¬ Known d w := by
    rintro d w l rfl hm
    rw [known_place, place_none]
    simpa [Dict.counts, List.map_map, Function.comp_def] using hm
  obtain ⟨d1, r1, o1, c1⟩ := step (w := [97]) (DictReach.incflag true (.new none)) rfl (by decide) (kn rfl (by decide)) (by decide)
  rw [show ((Dict.new 5).incflag true).counts = [] from rfl, List.nil_append] at c1
  obtain ⟨d2, r2, o2, c2⟩ := step (w := [98]) r1 o1 (by decide) (kn c1 (by decide)) (by decide)
  rw [c1] at c2
  obtain ⟨d3, r3, o3, c3⟩ := step (w := [99]) r2 o2 (by decide) (kn c2 (by decide)) (by decide)
  rw [c2] at c3
  obtain ⟨d4, r4, o4, c4⟩ := step (w := [100]) r3 o3 (by decide) (kn c3 (by decide)) (by decide)
  rw [c3] at c4
  obtain ⟨d5, r5, o5, c5⟩ := step (w := [101]) r4 o4 (by decide) (kn c4 (by decide)) (by decide)
  rw [c4] at c5
  exact ⟨d5, r5, o5, c5⟩

example : ∃ d, DictReach 5 d ∧ d.ifl = true ∧ d.counts = [([97], 0), ([98], 0), ([99], 0), ([100], 0), ([101], 0)] := reach_open

/-! ## C171: unknown words -/

/-- In a closed dictionary, unknown words are encoded as `<unk>`, if the code for unknown words is right and there
is no uninitialized pointer. -/
theorem C171_closed_partial {size : Nat} {d : Dict} (h5 : 5 ≤ size) (h : DictReach size d) {w : Str} (hw : w ≠ [])
    (ho : d.ifl = false) (hk : ¬ Known d w) (hr : OovRight d) (hx : d.oovlex ≠ none) :
    ∃ c e, d.encode w = .ok (c, e) ∧ e.oovCode = some c ∧ IsCode e oov c ∧
      (Known d oov → e.counts = d.counts) ∧ (¬ Known d oov → e.counts = d.counts ++ [(oov, 0)]) := by
  have hi := dictReach_inv h5 h
  have hcl : clean w = w := by unfold clean; rw [if_neg hw]
  obtain ⟨f, hf⟩ : ∃ f, d.oovlex = some f := Option.ne_none_iff_exists'.1 hx
  have hfind := hi.find w
  rw [known_place.1 hk] at hfind
  have hstep : ∀ {d1 : Dict}, d.startOov = .ok d1 → d1.oovlex = some f →
      ∃ b x, d.encode w = encodeLoop 1 { d1 with inOovLex := b, oovLexCode := x } oov := by
    intro d1 h1 h2
    obtain ⟨b, x, h3, _⟩ := lookOovlex_ok (d := d1) w h2
    refine ⟨b, x, ?_⟩
    unfold Dict.encode
    rw [show (2 : Nat) = 1 + 1 from rfl]
    conv_lhs => unfold encodeLoop
    rw [show (if w = [] then oov else w) = w by rw [if_neg hw]]
    simp only [hfind]
    rw [if_neg (by simp [ho])]
    simp only [h1, h3]
  rcases hr with ⟨h1, h2⟩ | ⟨c, h1, h2⟩
  · obtain ⟨t, lim, h3, h4⟩ := startOov_none hi h1
    obtain ⟨b, x, h5⟩ := hstep h3 hf
    have hinv := h4.of_words (e := { d with tb := d.tb ++ [⟨oov, d.tb.length, 0⟩], htb := t, lim := lim, oovCode := some d.tb.length, inOovLex := b, oovLexCode := x }) rfl rfl rfl rfl rfl
    have hpl : place (d.tb ++ [(⟨oov, d.tb.length, 0⟩ : Entry)]) oov = some d.tb.length :=
      place_append_new (e := ⟨oov, d.tb.length, 0⟩) (known_place.1 h2)
    refine ⟨d.tb.length, _, h5.trans (encode_known hinv (by rw [clean_oov]; exact hpl) 0), rfl, isCode_place.2 hpl, fun hk => absurd hk h2, fun _ => ?_⟩
    simp [Dict.counts]
  · have h3 : d.startOov = .ok d := by unfold Dict.startOov; rw [h1]
    obtain ⟨b, x, h5⟩ := hstep h3 hf
    have hinv := hi.of_words (e := { d with inOovLex := b, oovLexCode := x }) rfl rfl rfl rfl rfl
    have hpl := isCode_place.1 h2
    refine ⟨c, _, h5.trans (encode_known hinv (by rw [clean_oov]; exact hpl) 0), h1, h2, fun _ => rfl, fun hk => absurd ⟨c, h2.1⟩ hk⟩

example : OovRight (Dict.new 5) ∧ (Dict.new 5).oovlex ≠ none ∧ (Dict.new 5).ifl = false := by
  refine ⟨Or.inl ⟨rfl, ?_⟩, by simp [Dict.new], rfl⟩
  rintro ⟨c, hc⟩
  simp [HasWord, Dict.new] at hc

/-- The words, the code for unknown words, and what `encode` returns. -/
def outcome (r : Except Stop (Nat × Dict)) : Option (Nat × Option Nat × List Str) :=
  match r with
  | .ok (c, e) => some (c, e.oovCode, e.tb.map Entry.word)
  | .error _ => none

/-- There is a dictionary with a property. -/
def okAnd (p : Dict → Bool) : Except Stop Dict → Bool
  | .ok d => p d
  | .error _ => false

theorem okAnd_spec {p : Dict → Bool} {r : Except Stop Dict} (h : okAnd p r = true) : ∃ d, r = .ok d ∧ p d = true := by
  cases r with
  | ok d => exact ⟨d, rfl, h⟩
  | error e => cases h

/-- If `<unk>` has been added like other words, the first unknown word adds it once more, and the code that is
returned is not the code for unknown words. -/
theorem C171_twice_false : ∃ d, DictReach 100 d ∧ d.ifl = false ∧ d.oovlex ≠ none ∧
    ¬ Known d [98] ∧ outcome (d.encode [98]) = some (0, some 1, [oov, oov]) := by
  obtain ⟨d, hg, key⟩ := okAnd_spec (r := (Dict.new 100).generate [] oov)
    (p := fun d => decide (d.ifl = false ∧ d.oovlex.isSome = true ∧ d.tb.map Entry.word = [oov] ∧
      outcome (d.encode [98]) = some (0, some 1, [oov, oov]))) (by decide +kernel)
  rw [decide_eq_true_eq] at key
  refine ⟨d, .generate (.new none) hg, key.1, ?_, ?_, key.2.2.2⟩
  · rw [Option.ne_none_iff_isSome]; exact key.2.1
  · rw [known_place, place_none, key.2.2.1]; decide

/-- If the code for unknown words has been set but there is no `<unk>`, `encode` does not return. -/
theorem C171_endless_false {size : Nat} (h5 : 5 ≤ size) : ∀ fuel {d : Dict}, DictReach size d → ∀ {w : Str}, w ≠ [] →
    d.ifl = false → d.oovCode ≠ none → d.oovlex ≠ none → ¬ Known d oov → ¬ Known d w →
    encodeLoop fuel d w = .error .endless := by
  intro fuel d h w hw hi ho hx hk hkw
  have hinv := dictReach_inv h5 h
  clear h
  induction fuel generalizing d w with
  | zero => rfl
  | succ fuel ih =>
    obtain ⟨f, hf⟩ : ∃ f, d.oovlex = some f := Option.ne_none_iff_exists'.1 hx
    obtain ⟨c, hc⟩ : ∃ c, d.oovCode = some c := Option.ne_none_iff_exists'.1 ho
    have hfind := hinv.find w
    rw [known_place.1 hkw] at hfind
    have h1 : d.startOov = .ok d := by unfold Dict.startOov; rw [hc]
    obtain ⟨b, x, h3, _⟩ := lookOovlex_ok (d := d) w hf
    unfold encodeLoop
    rw [show (if w = [] then oov else w) = w by rw [if_neg hw]]
    simp only [hfind]
    rw [if_neg (by simp [hi])]
    simp only [h1, h3]
    exact ih (d := { d with inOovLex := b, oovLexCode := x }) (by decide) hi ho hx hk hk
      (hinv.of_words rfl rfl rfl rfl rfl)

example : DictReach 5 ((Dict.new 5).setOovcode 0) ∧ ¬ Known ((Dict.new 5).setOovcode 0) oov := by
  refine ⟨.oovcode 0 (.new none), ?_⟩
  rintro ⟨c, hc⟩
  simp [HasWord, Dict.new, Dict.setOovcode] at hc

/-- The rate of unknown words cannot be set in a dictionary in which `<unk>` is an ordinary word: the entry before
the table would be changed. -/
theorem C171_oovrate_false : ((Dict.new 5).incflag true).setoovrate 3 = .error .undefined := by
  have : (match ((Dict.new 5).incflag true).setoovrate 3 with
      | .error .undefined => true
      | _ => false) = true := by decide +kernel
  cases h : ((Dict.new 5).incflag true).setoovrate 3 with
  | ok d => rw [h] at this; cases this
  | error e => rw [h] at this; cases e <;> first | rfl | cases this

/-! ## C172: dictionaries of texts -/

/-- The words of a text, without interruption symbols. -/
def ordinaryWords (is text : Str) : List Str :=
  (textWords text).filter fun w => !(decide (w.length = 1) && w.all is.contains)

/-- A text gives its words in the order of their first occurrences, with their numbers, if no word has more than 999
characters. -/
theorem C172_generate_partial {size : Nat} (f) (hs : 100 < size) (is text : Str)
    (hw : ∀ w ∈ textWords text, w.length ≤ 999 ∧ (0 : Byte) ∉ w) :
    ∃ d, (Dict.new size f).generate is text = .ok d ∧
      d.counts = (firstWords (ordinaryWords is text)).map (fun w => (w, ((ordinaryWords is text).count w : Int))) ∧
      d.total = (ordinaryWords is text).length ∧ d.ifl = false ∧ d.oovCode = none := by
  have h0 : Counted size [] ((Dict.new size f).incflag true) :=
    ⟨(new_dict_inv f (by omega)).of_words rfl rfl rfl rfl rfl, rfl, rfl, rfl, rfl, rfl⟩
  obtain ⟨e, h1, h2⟩ := generateLoop_spec is (text.length + 1) text (Nat.lt_succ_self _) hw hs h0
  refine ⟨e.incflag false, ?_, ?_, ?_, rfl, h2.oovc⟩
  · unfold Dict.generate; rw [h1]
  · exact h2.counts
  · have := h2.total
    rw [List.nil_append] at this
    exact this

/-- "a b  a" -/
example : (∀ w ∈ textWords [97, 32, 98, 32, 10, 97], w.length ≤ 999 ∧ (0 : Byte) ∉ w) ∧
    firstWords (ordinaryWords [] [97, 32, 98, 32, 10, 97]) = [[97], [98]] := by decide +kernel

/-- `n` letters. -/
def letters (n : Nat) : Str := List.replicate n 97

/-- A word of 1000 characters becomes two words. -/
theorem C172_long_false : ¬ ∀ (size : Nat) (text : Str), 100 < size → ∀ d, (Dict.new size).generate [] text = .ok d →
    d.counts.length = (firstWords (textWords text)).length := by
  intro h
  obtain ⟨d, hg, key⟩ := okAnd_spec (r := (Dict.new 101).generate [] (letters 1000))
    (p := fun d => decide (d.counts.length = 2)) (by decide +kernel)
  have hw : (firstWords (textWords (letters 1000))).length = 1 := by decide +kernel
  rw [decide_eq_true_eq] at key
  have := h 101 (letters 1000) (by decide) d hg
  rw [hw, key] at this
  cases this

/-! ## C173: saving and loading -/

/-- A dictionary that is saved and loaded is the same, if its words are different and can be written. -/
theorem C173_roundtrip_partial {size size' : Nat} (f) {d : Dict} (hs : 5 ≤ size') (h : DictReach size d)
    (hw : ∀ e ∈ d.tb, Writable e.word ∧ e.word.length + 1 < size' * 10) (hn : (d.tb.map Entry.word).Nodup) :
    ∃ r, (Dict.new size' f).load d.save = .ok r ∧ r.counts = d.counts ∧ r.total = (d.tb.map Entry.freq).sum ∧
      (∀ c, r.oovCode = some c ↔ HasWord d c oov) := by
  have hI := readInt_decimalInt d.tb.length (c := 10) (by decide) (lines d.tb) (sp := []) (by simp)
  obtain ⟨r, g1, g2, g3, g4, g5⟩ := loadLoop_spec d.tb (d := Dict.new size' f) (sp := [10]) (new_dict_inv f hs)
    (by decide) hw (by simpa [Dict.new] using hn)
  refine ⟨r, ?_, ?_, ?_, fun c => ?_⟩
  · unfold Dict.load
    have hsv : d.save = [] ++ (decimalInt d.tb.length ++ 10 :: lines d.tb) := by
      simp [Dict.save, decimalInt, lines]
    rw [hsv, hI]
    exact g1
  · exact g3
  · rw [g4]; simp [Dict.new]
  · rw [g5, oovAfter_spec _ _ _ hn]
    have huniq : HasWord d c oov ↔ place d.tb oov = some c := by
      rw [← isCode_place]
      constructor
      · intro hc
        refine ⟨hc, fun j hj hj' => ?_⟩
        unfold HasWord at hc hj'
        rw [← List.getElem?_map] at hc hj'
        obtain ⟨l1, e1⟩ := List.getElem?_eq_some_iff.1 hc
        obtain ⟨l2, e2⟩ := List.getElem?_eq_some_iff.1 hj'
        have := (List.Nodup.getElem_inj_iff hn).1 (e1.trans e2.symm)
        omega
      · exact fun hc => hc.1
    rw [huniq]
    cases hp : place d.tb oov with
    | none => simp [Dict.new]
    | some k => simp [Dict.new]

example : ∃ d, DictReach 5 d ∧ (∀ e ∈ d.tb, Writable e.word ∧ e.word.length + 1 < 50) ∧
    (d.tb.map Entry.word).Nodup ∧ d.tb.length = 5 := by
  obtain ⟨d, h1, _, h2⟩ := reach_open
  have hw : d.tb.map Entry.word = [[97], [98], [99], [100], [101]] := by
    have := congrArg (List.map Prod.fst) h2
    simpa [Dict.counts, List.map_map, Function.comp_def] using this
  refine ⟨d, h1, fun e he => ?_, by rw [hw]; decide, by have := congrArg List.length hw; simpa using this⟩
  have : e.word ∈ [[97], [98], [99], [100], [(101 : Byte)]] := by rw [← hw]; exact List.mem_map_of_mem he
  revert this
  generalize e.word = w
  intro hm
  unfold Writable
  fin_cases hm <;> decide

/-- A file in which a word is repeated is refused. -/
theorem C173_repeated {size' : Nat} (f) (hs : 5 ≤ size') (d : Dict) (l1 l2 : List Entry) (e : Entry)
    (htb : d.tb = l1 ++ e :: l2) (hn : (l1.map Entry.word).Nodup) (hm : e.word ∈ l1.map Entry.word)
    (hw : ∀ x ∈ l1, Writable x.word ∧ x.word.length + 1 < size' * 10) :
    (Dict.new size' f).load d.save = .error .exit := by
  have hI := readInt_decimalInt d.tb.length (c := 10) (by decide) (lines d.tb) (sp := []) (by simp)
  have g1 := loadLoop_dup l1 (e := e) l2 (d := Dict.new size' f) (sp := [10]) (new_dict_inv f hs) (by decide)
    (fun x hx => by
      rw [List.mem_append, List.mem_singleton] at hx
      rcases hx with hx | rfl
      · exact hw x hx
      · obtain ⟨y, hy, he⟩ := List.mem_map.1 hm
        rw [← he]; exact hw y hy)
    (by simpa [Dict.new] using hn) (by simpa [Dict.new] using hm)
  unfold Dict.load
  have hsv : d.save = [] ++ (decimalInt d.tb.length ++ 10 :: lines d.tb) := by
    simp [Dict.save, decimalInt, lines]
  rw [hsv, hI]
  simp only [Int.toNat_natCast]
  rw [htb]
  exact g1

/-- A dictionary that was made from a text with `<unk>`, and has met an unknown word, cannot be loaded. -/
theorem C173_unk_false : ∃ d, DictReach 100 d ∧ (Dict.new 100).load d.save = .error .exit ∧
    d.tb.map Entry.word = [oov, oov] := by
  obtain ⟨d, h1, _, _, _, h2⟩ := C171_twice_false
  cases he : d.encode [98] with
  | error x => rw [he] at h2; cases h2
  | ok r =>
    obtain ⟨c, e⟩ := r
    rw [he] at h2
    simp only [outcome, Option.some.injEq, Prod.mk.injEq] at h2
    refine ⟨e, .encode h1 he, ?_, h2.2.2⟩
    have hlen : e.tb.length = 2 := by have := congrArg List.length h2.2.2; simpa using this
    match htb : e.tb, hlen with
    | [a, b], _ =>
      have hw := h2.2.2
      rw [htb] at hw
      simp only [List.map_cons, List.map_nil, List.cons.injEq, and_true] at hw
      refine C173_repeated none (by decide) e [a] [] b htb (by simp) (by simp [hw.1, hw.2]) ?_
      intro x hx
      rw [List.mem_singleton] at hx
      subst hx
      rw [hw.1]
      unfold Writable
      decide

/-- A word of 999 characters is accepted in a text, but not in a file. -/
theorem C173_long_false : ∃ d, DictReach 101 d ∧ d.tb.map Entry.word = [letters 999] ∧
    (Dict.new 101).load d.save = .error .exit := by
  obtain ⟨d, h1, h2, _⟩ := C172_generate_partial (size := 101) none (by decide) [] (letters 999)
    (by decide +kernel)
  have hw : d.tb.map Entry.word = [letters 999] := by
    have := congrArg (List.map Prod.fst) h2
    rw [show firstWords (ordinaryWords [] (letters 999)) = [letters 999] by decide +kernel] at this
    simpa [Dict.counts, List.map_map, Function.comp_def] using this
  refine ⟨d, .generate (.new none) h1, hw, ?_⟩
  have hI := readInt_decimalInt d.tb.length (c := 10) (by decide) (lines d.tb) (sp := []) (by simp)
  have hlen : d.tb.length = 1 := by have := congrArg List.length hw; simpa using this
  unfold Dict.load
  have hsv : d.save = [] ++ (decimalInt d.tb.length ++ 10 :: lines d.tb) := by
    simp [Dict.save, decimalInt, lines]
  rw [hsv, hI]
  simp only [Int.toNat_natCast]
  match htb : d.tb, hlen with
  | [⟨w, k, g⟩], _ =>
    rw [htb] at hw
    simp only [List.map_cons, List.map_nil, List.cons.injEq, and_true] at hw
    subst hw
    exact loadLoop_long (by decide +kernel) (by decide +kernel) (by decide +kernel) (by decide +kernel) 0 (sp := [10]) (by decide) k g [] _

/-! ## C174: copies -/

/-- A copy has the same entries in the new order with new codes; the code for unknown words is that of the same
word; the words are found. -/
theorem C174_copy {size : Nat} {d : Dict} (h5 : 5 ≤ size) (h : DictReach size d) {tb : List Entry} (hp : tb.Perm d.tb) :
    ∃ r, d.copyWith tb = .ok r ∧ r.counts = tb.map (fun e => (e.word, e.freq)) ∧ r.total = d.total ∧
      (∀ w c, d.oovCode = some c → HasWord d c w → ∃ k, r.oovCode = some k ∧ HasWord r k w) ∧
      (d.oovCode = none → r.oovCode = none) ∧
      ∀ w, (∀ c, r.getcode w = .ok (some c) ↔ IsCode r w c) ∧ (r.getcode w = .ok none ↔ ¬ Known r w) := by
  have hi := dictReach_inv h5 h
  obtain ⟨hl, hst, hlen⟩ := dictReach_sizes h
  obtain ⟨r, h1, h2, h3, h4, _, _, h7, h8⟩ := copy_spec hi hp
    (fun e he => by have := hlen _ (List.mem_map_of_mem he); omega) (by omega)
  have hrw : r.tb.map Entry.word = tb.map Entry.word := by
    have := congrArg (List.map Prod.fst) h3
    simpa [List.map_map, Function.comp_def] using this
  refine ⟨r, h1, h3, h4, fun w c hc hw => ?_, fun ho => h8 fun e _ => by rw [ho]; simp, fun w => ?_⟩
  · unfold HasWord at hw
    obtain ⟨e, he, rfl⟩ := Option.map_eq_some_iff.1 hw
    obtain ⟨k, hk, hke⟩ := List.mem_iff_getElem.1 (hp.mem_iff.2 (List.mem_of_getElem? he))
    have hk' : tb[k]? = some e := by rw [List.getElem?_eq_getElem hk, hke]
    have hec : e.code = c := by
      have := congrArg (fun l => l[c]?) hi.codes
      simp only [List.getElem?_map, he, Option.map_some] at this
      rw [List.getElem?_range (List.getElem?_eq_some_iff.1 he).1] at this
      simpa using this
    refine ⟨k, h7 k e hk' (by rw [hc, hec]), ?_⟩
    unfold HasWord
    rw [← List.getElem?_map, hrw, List.getElem?_map, hk']; rfl
  · have hfind := h2.find w
    unfold Dict.getcode
    rw [hfind]
    simp only
    rw [known_place]
    constructor
    · intro c
      rw [isCode_place]
      cases hp : place r.tb w with
      | none => simp
      | some k => simp [h2.codeAt_place hp]
    · cases hp : place r.tb w with
      | none => simp
      | some k => simp

example : ∃ d tb, DictReach 5 d ∧ tb.Perm d.tb ∧ tb ≠ d.tb := by
  obtain ⟨d, h1, _, h2⟩ := reach_open
  refine ⟨d, d.tb.reverse, h1, List.reverse_perm _, fun he => ?_⟩
  have := congrArg (List.map fun e => (e.word, e.freq)) he
  rw [List.map_reverse, show d.tb.map (fun e => (e.word, e.freq)) = _ from h2] at this
  revert this; decide

/-- A sorted copy is ordered by decreasing frequencies and then by words, if the frequencies differ by less than
2³¹. -/
theorem C174_sorted_partial {tb tb' : List Entry} (h : Sorted tb tb')
    (hf : ∀ a ∈ tb, ∀ b ∈ tb, b.freq - a.freq < 2 ^ 31) :
    tb'.Perm tb ∧ tb'.Pairwise fun a b => b.freq < a.freq ∨ (b.freq = a.freq ∧ a.word ≤ b.word) := by
  refine ⟨h.1, ?_⟩
  have hmem : ∀ x ∈ tb', x ∈ tb := fun x hx => h.1.mem_iff.1 hx
  refine h.2.imp_of_mem fun {a b} ha hb hab => ?_
  refine cmpdictentry_le ?_ (hf a (hmem a ha) b (hmem b hb)) hab
  have := hf b (hmem b hb) a (hmem a ha)
  omega

example : Sorted [⟨[97], 0, 2⟩, ⟨[98], 1, 5⟩, ⟨[66], 2, 2⟩] [⟨[98], 1, 5⟩, ⟨[66], 2, 2⟩, ⟨[97], 0, 2⟩] := by
  unfold Sorted; decide

/-- With larger frequencies the comparison overflows: entries with increasing frequencies count as sorted. -/
theorem C174_order_false : ¬ ∀ tb tb' : List Entry, Sorted tb tb' →
    tb'.Pairwise fun a b => b.freq ≤ a.freq := by
  intro h
  have := h [⟨[97], 0, 0⟩, ⟨[98], 1, 3000000000⟩] [⟨[97], 0, 0⟩, ⟨[98], 1, 3000000000⟩] (by unfold Sorted; decide)
  revert this; decide

/-- There may be no order with which the comparison agrees. -/
theorem C174_cycle_false : ¬ ∀ tb : List Entry, ∃ tb', Sorted tb tb' := by
  intro h
  obtain ⟨tb', h1, h2⟩ := h [⟨[97], 0, 0⟩, ⟨[98], 1, 2000000000⟩, ⟨[99], 2, 4000000000⟩]
  have key : ∀ l ∈ List.permutations' ([⟨[97], 0, 0⟩, ⟨[98], 1, 2000000000⟩, ⟨[99], 2, 4000000000⟩] : List Entry),
      ¬ l.Pairwise fun a b => cmpdictentry a b ≤ 0 := by decide +kernel
  exact key tb' (List.mem_permutations'.2 h1) h2

/-- In a copy, unknown words use a pointer that is not initialized. -/
theorem C174_oovlex_false {size : Nat} {d r : Dict} {tb : List Entry} (h5 : 5 ≤ size) (h : DictReach size d)
    (hp : tb.Perm d.tb) (hr : d.copyWith tb = .ok r) {w : Str} (hw : w ≠ []) (hk : ¬ Known r w) :
    r.encode w = .error .undefined := by
  have hi := dictReach_inv h5 h
  obtain ⟨hl, hst, hlen⟩ := dictReach_sizes h
  obtain ⟨r', h1, h2, _, _, h5, h6, _⟩ := copy_spec hi hp
    (fun e he => by have := hlen _ (List.mem_map_of_mem he); omega) (by omega)
  rw [hr] at h1
  cases h1
  have hfind := h2.find w
  rw [known_place.1 hk] at hfind
  have hst : ∃ e, r.startOov = .ok e ∧ e.oovlex = none := by
    cases ho : r.oovCode with
    | some c => exact ⟨r, by unfold Dict.startOov; rw [ho], h6⟩
    | none =>
      obtain ⟨t, lim, g1, _⟩ := startOov_none h2 ho
      exact ⟨_, g1, h6⟩
  obtain ⟨e, g1, g2⟩ := hst
  unfold Dict.encode encodeLoop
  rw [show (if w = [] then oov else w) = w by rw [if_neg hw]]
  simp only [hfind, h5, g1, Dict.lookOovlex, g2]
  rfl

end Verif.Irstlm
