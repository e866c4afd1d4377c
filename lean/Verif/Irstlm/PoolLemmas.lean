import Verif.Irstlm.Pool
import Mathlib.Data.List.Nodup
import Mathlib.Data.List.Range
import Mathlib.Tactic.Linarith
import Mathlib.Tactic.Ring

/-! # Lemmas about the pools -/

namespace Verif.Irstlm

theorem roundUp_pos (is : Nat) : 8 ≤ roundUp is := by
  unfold roundUp; simp only; split <;> omega

theorem roundUp_le (is : Nat) : is ≤ roundUp is := by
  unfold roundUp; simp only; split <;> omega

theorem roundUp_mod (is : Nat) : roundUp is % 8 = 0 := by
  unfold roundUp; simp only; split <;> omega

/-- The free list through the memory. -/
def Chain (cell : Addr → Option Addr) : Option Addr → List Addr → Prop
  | h, [] => h = none
  | h, a :: l => h = some a ∧ Chain cell (cell a) l

theorem Chain.congr {c d : Addr → Option Addr} : ∀ {h l}, Chain c h l → (∀ a ∈ l, d a = c a) → Chain d h l
  | _, [], hc, _ => hc
  | _, a :: l, hc, he => ⟨hc.1, by
      rw [he a (by simp)]
      exact hc.2.congr fun b hb => he b (by simp [hb])⟩

theorem Chain.store {c : Addr → Option Addr} {h l a v} (hc : Chain c h l) (ha : a ∉ l) :
    Chain (store c a v) h l :=
  hc.congr fun b hb => by
    unfold Verif.Irstlm.store; rw [if_neg]; rintro rfl; exact ha hb

/-- The items of a block from the place `i` on. -/
def slots (is b i n : Nat) : List Addr := (List.range n).map fun k => ⟨b, (i + k) * is⟩

theorem mem_slots {is b i n a} : a ∈ slots is b i n ↔ ∃ k < n, a = ⟨b, (i + k) * is⟩ := by
  simp [slots, eq_comm]

theorem slots_nodup {is b i n} (h : 0 < is) : (slots is b i n).Nodup := by
  refine List.Nodup.map ?_ List.nodup_range
  intro x y hxy
  simp only [Addr.mk.injEq, true_and] at hxy
  have := Nat.eq_of_mul_eq_mul_right h hxy
  omega

theorem slots_succ {is b i n} : slots is b i (n + 1) = ⟨b, i * is⟩ :: slots is b (i + 1) n := by
  simp only [slots, List.range_succ_eq_map, List.map_cons, List.map_map, Nat.add_zero, List.cons.injEq,
    true_and]
  refine List.map_congr_left fun k _ => ?_
  simp only [Function.comp, Addr.mk.injEq, true_and]
  rw [show i + k.succ = i + 1 + k by omega]

theorem linkLoop_spec (is b : Nat) (h : 0 < is) : ∀ n i cell,
    (linkLoop is b n (i * is) cell).1 = (i + n) * is ∧
      (∀ a, a.block ≠ b → (linkLoop is b n (i * is) cell).2 a = cell a) ∧
      (∀ a, a.offset < i * is → (linkLoop is b n (i * is) cell).2 a = cell a) ∧
      Chain (store (linkLoop is b n (i * is) cell).2 ⟨b, (i + n) * is⟩ none) (some ⟨b, i * is⟩)
        (slots is b i (n + 1))
  | 0, i, cell => by
    refine ⟨rfl, fun _ _ => rfl, fun _ _ => rfl, ?_⟩
    simp [linkLoop, slots, Chain, store]
  | n + 1, i, cell => by
    have he : i * is + is = (i + 1) * is := by ring
    obtain ⟨h1, h2, h3, h4⟩ := linkLoop_spec is b h n (i + 1)
      (store cell ⟨b, i * is⟩ (some ⟨b, i * is + is⟩))
    simp only [linkLoop]
    rw [he] at h2 h3 h4 ⊢
    rw [he] at h1
    have hi : i + 1 + n = i + (n + 1) := by omega
    rw [hi] at h1 h4
    refine ⟨h1, ?_, ?_, ?_⟩
    · intro a ha
      rw [h2 a ha, store, if_neg]; rintro rfl; exact ha rfl
    · intro a ha
      rw [h3 a (by rw [← he]; omega), store, if_neg]; rintro rfl; simp at ha
    · rw [slots_succ]
      refine ⟨rfl, ?_⟩
      have hlt : i * is < (i + (n + 1)) * is := Nat.mul_lt_mul_of_pos_right (by omega) h
      have hlt1 : i * is < (i + 1) * is := Nat.mul_lt_mul_of_pos_right (by omega) h
      have : store (linkLoop is b n ((i + 1) * is) (store cell ⟨b, i * is⟩ (some ⟨b, (i + 1) * is⟩))).2
          ⟨b, (i + (n + 1)) * is⟩ none ⟨b, i * is⟩ = some ⟨b, (i + 1) * is⟩ := by
        rw [store, if_neg (by simp; omega), h3 _ hlt1, store, if_pos rfl]
      rw [this]
      exact h4

theorem linkBlock_spec {is bs b cell} (h : 8 ≤ is) (hb : 0 < bs) : ∃ c, linkBlock is bs b cell = some c ∧
    (∀ a, a.block ≠ b → c a = cell a) ∧ Chain c (some ⟨b, 0⟩) (slots is b 0 bs) := by
  obtain ⟨h1, h2, _, h4⟩ := linkLoop_spec is b (by omega) (bs - 1) 0 cell
  simp only [Nat.zero_mul, Nat.zero_add] at h1 h2 h4
  have hle : (bs - 1) * is + 8 ≤ is * bs := by
    obtain ⟨k, rfl⟩ : ∃ k, bs = k + 1 := ⟨bs - 1, by omega⟩
    simp only [Nat.add_sub_cancel]
    rw [Nat.mul_comm is, Nat.add_mul]; omega
  refine ⟨store (linkLoop is b (bs - 1) 0 cell).2 ⟨b, (bs - 1) * is⟩ none, ?_, ?_, ?_⟩
  · unfold linkBlock
    simp only [h1, hle, if_true]
  · intro a ha
    rw [store, if_neg (by rintro rfl; exact ha rfl), h2 a ha]
  · rw [show bs - 1 + 1 = bs by omega] at h4
    exact h4

/-- All items of the blocks. -/
def allSlots (is bs n : Nat) : List Addr := (List.range n).flatMap fun b => slots is b 0 bs

theorem allSlots_succ {is bs n} : allSlots is bs (n + 1) = allSlots is bs n ++ slots is n 0 bs := by
  simp [allSlots, List.range_succ]

theorem mem_allSlots {is bs n a} :
    a ∈ allSlots is bs n ↔ a.block < n ∧ ∃ k < bs, a.offset = k * is := by
  simp only [allSlots, List.mem_flatMap, List.mem_range, mem_slots, Nat.zero_add]
  constructor
  · rintro ⟨b, hb, k, hk, rfl⟩; exact ⟨hb, k, hk, rfl⟩
  · rintro ⟨hb, k, hk, ho⟩; exact ⟨a.block, hb, k, hk, by rw [← ho]⟩

theorem length_allSlots {is bs : Nat} : ∀ n, (allSlots is bs n).length = n * bs
  | 0 => by simp [allSlots]
  | n + 1 => by rw [allSlots_succ, List.length_append, length_allSlots n]; simp [slots]; ring

theorem allSlots_nodup {is bs : Nat} (h : 0 < is) : ∀ n, (allSlots is bs n).Nodup
  | 0 => by simp [allSlots]
  | n + 1 => by
    rw [allSlots_succ]
    refine (allSlots_nodup h n).append (slots_nodup h) ?_
    intro a ha hb
    rw [mem_allSlots] at ha
    rw [mem_slots] at hb
    obtain ⟨k, _, rfl⟩ := hb
    exact absurd ha.1 (by simp)

/-- What holds of the pools. -/
structure PoolInv (is bs : Nat) (p : Pool) (live fs : List Addr) : Prop where
  size : p.itemSize = roundUp is
  block : p.blockSize = bs
  pos : 0 < bs
  chain : Chain p.cell p.freeList fs
  perm : (fs ++ live).Perm (allSlots (roundUp is) bs p.blocknum)
  count : p.entries = live.length
  blocks : 0 < p.blocknum

theorem PoolInv.nodup {is bs p live fs} (h : PoolInv is bs p live fs) : (fs ++ live).Nodup :=
  h.perm.nodup_iff.2 (allSlots_nodup (by have := roundUp_pos is; omega) _)

theorem new_inv {is bs : Nat} (hb : 0 < bs) : ∃ p, Pool.new is bs = some p ∧
    PoolInv is bs p [] (slots (roundUp is) 0 0 bs) := by
  obtain ⟨c, hc, _, hch⟩ := linkBlock_spec (b := 0) (cell := fun _ => none) (roundUp_pos is) hb
  refine ⟨_, by rw [Pool.new, hc]; rfl, rfl, rfl, hb, hch, ?_, rfl, Nat.one_pos⟩
  simp [allSlots, List.range_succ]

theorem new_zero (is : Nat) : Pool.new is 0 = none := by
  unfold Pool.new linkBlock linkLoop
  simp

theorem extend_inv {is bs p live fs} (h : PoolInv is bs p live fs) : ∃ q a fs', p.extend = some q ∧
    PoolInv is bs q live (a :: fs') ∧
    (fs = a :: fs' ∧ q = p ∨ fs = [] ∧ q.blocknum = p.blocknum + 1 ∧ a = ⟨p.blocknum, 0⟩) := by
  cases fs with
  | cons a fs' =>
    refine ⟨p, a, fs', ?_, h, Or.inl ⟨rfl, rfl⟩⟩
    unfold Pool.extend; rw [h.chain.1]
  | nil =>
    have hn : p.freeList = none := h.chain
    obtain ⟨c, hc, _, hch⟩ := linkBlock_spec (is := p.itemSize) (bs := p.blockSize) (b := p.blocknum)
      (cell := p.cell)
      (by rw [h.size]; exact roundUp_pos is) (by rw [h.block]; exact h.pos)
    obtain ⟨k, hk⟩ : ∃ k, bs = k + 1 := ⟨bs - 1, by have := h.pos; omega⟩
    rw [h.block, h.size, hk, slots_succ] at hch
    refine ⟨{ p with cell := c, freeList := some ⟨p.blocknum, 0⟩, blocknum := p.blocknum + 1 },
      ⟨p.blocknum, 0⟩, slots (roundUp is) p.blocknum 1 k, by unfold Pool.extend; rw [hn, hc]; rfl, ⟨h.size, h.block, h.pos, ?_, ?_, h.count, by simp⟩,
      Or.inr ⟨rfl, rfl, rfl⟩⟩
    · simpa using hch
    · simp only [allSlots_succ]
      rw [show (⟨p.blocknum, 0⟩ : Addr) :: slots (roundUp is) p.blocknum 1 k =
        slots (roundUp is) p.blocknum 0 bs by rw [hk, slots_succ]; simp]
      have := h.perm
      simp only [List.nil_append] at this
      exact (List.perm_append_comm).trans (this.append_right _)

theorem allocate_inv {is bs p live fs} (h : PoolInv is bs p live fs) : ∃ a q fs', p.allocate = some (a, q) ∧
    PoolInv is bs q (a :: live) fs' ∧ a ∉ live ∧
    q.blocknum = (if live.length = p.blocknum * bs then p.blocknum + 1 else p.blocknum) := by
  obtain ⟨q, a, fs', he, hq, hor⟩ := extend_inv h
  refine ⟨a, _, fs', by rw [Pool.allocate, he]; simp only [Option.bind_some]; rw [hq.chain.1]; rfl, ?_, ?_, ?_⟩
  · have hn := hq.nodup
    have ha : a ∉ fs' := fun hm => by
      simp only [List.cons_append, List.nodup_cons, List.mem_append, not_or] at hn
      exact hn.1.1 hm
    refine ⟨hq.size, hq.block, hq.pos, hq.chain.2.store ha, ?_, ?_, hq.blocks⟩
    · exact List.perm_middle.trans hq.perm
    · simp only [List.length_cons, hq.count]; push_cast; ring
  · have hn := hq.nodup
    simp only [List.cons_append, List.nodup_cons, List.mem_append, not_or] at hn
    exact hn.1.2
  · have hl := h.perm.length_eq
    rw [length_allSlots, List.length_append] at hl
    rcases hor with ⟨h1, h2⟩ | ⟨h1, h2, _⟩
    · subst h2
      rw [h1] at hl
      simp only [List.length_cons] at hl
      rw [if_neg (by omega)]
    · subst h1
      simp only [List.length_nil, Nat.zero_add] at hl
      rw [if_pos hl]; exact h2

theorem free_inv {is bs p live fs a} (h : PoolInv is bs p live fs) (ha : a ∈ live) :
    PoolInv is bs (p.free a) (live.erase a) (a :: fs) := by
  have hn := h.nodup
  have hna : a ∉ fs := fun hm => (List.disjoint_of_nodup_append hn) hm ha
  refine ⟨h.size, h.block, h.pos, ⟨rfl, ?_⟩, ?_, ?_, h.blocks⟩
  · have : store p.cell a p.freeList a = p.freeList := by simp [store]
    simp only [Pool.free]
    rw [this]
    exact h.chain.store hna
  · refine List.Perm.trans ?_ h.perm
    refine List.Perm.trans ?_ ((List.perm_cons_erase ha).symm.append_left fs)
    exact List.perm_middle.symm
  · have := List.length_erase_of_mem ha
    have hp : 0 < live.length := List.length_pos_of_mem ha
    simp only [Pool.free, h.count, this]
    omega

theorem write_inv {is bs p live fs a} (v : Option Addr) (h : PoolInv is bs p live fs) (ha : a ∈ live) :
    PoolInv is bs (p.write a v) live fs :=
  ⟨h.size, h.block, h.pos, h.chain.store fun hm => (List.disjoint_of_nodup_append h.nodup) hm ha, h.perm,
    h.count, h.blocks⟩

theorem reach_inv {is bs p live} (h : Reach is bs p live) : ∃ fs, PoolInv is bs p live fs := by
  induction h with
  | start hp =>
    rcases Nat.eq_zero_or_pos bs with rfl | hb
    · rw [new_zero] at hp; cases hp
    · obtain ⟨q, hq, hi⟩ := new_inv (is := is) hb
      rw [hq] at hp; cases hp
      exact ⟨_, hi⟩
  | allocate _ ha ih =>
    obtain ⟨fs, hi⟩ := ih
    obtain ⟨a', q', fs', h1, h2, _⟩ := allocate_inv hi
    rw [h1] at ha; cases ha
    exact ⟨_, h2⟩
  | free _ ha ih => obtain ⟨fs, hi⟩ := ih; exact ⟨_, free_inv hi ha⟩
  | write v _ ha ih => obtain ⟨fs, hi⟩ := ih; exact ⟨_, write_inv v hi ha⟩

end Verif.Irstlm
