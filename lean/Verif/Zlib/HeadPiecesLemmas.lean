import Verif.Zlib.PropsPieces
import Verif.Zlib.HeadPieces

/-! Lemmas about the head of a block in pieces. -/

namespace Verif.Zlib

/-- With more input behind. -/
def Bits.app (b : Bits) (q : List Byte) : Bits := ⟨b.hold, b.bits, b.next ++ q⟩

/-! ### More input -/

theorem need_nil (n h k : Nat) : need n ⟨h, k, []⟩ = if n ≤ k then some ⟨h, k, []⟩ else none := rfl

theorem need_cons (n h k : Nat) (x : Byte) (xs : List Byte) : need n ⟨h, k, x :: xs⟩ =
    if n ≤ k then some ⟨h, k, x :: xs⟩ else need n ⟨h + x.toNat * 2 ^ k, k + 8, xs⟩ := rfl

theorem need_enough {n h k : Nat} (hn : n ≤ k) (p : List Byte) : need n ⟨h, k, p⟩ = some ⟨h, k, p⟩ := by
  cases p with
  | nil => rw [need_nil, if_pos hn]
  | cons x xs => rw [need_cons, if_pos hn]

theorem need_app {n : Nat} (q : List Byte) : ∀ (p : List Byte) (h k : Nat) (b' : Bits),
    need n ⟨h, k, p⟩ = some b' → need n ⟨h, k, p ++ q⟩ = some (b'.app q)
  | [], h, k, b', e => by
    rw [need_nil] at e
    split at e
    · rename_i hn
      simp only [Option.some.injEq] at e
      subst e
      exact need_enough hn _
    · simp at e
  | x :: xs, h, k, b', e => by
    rw [need_cons] at e
    split at e
    · rename_i hn
      simp only [Option.some.injEq] at e
      subst e
      exact need_enough hn _
    · rename_i hn
      rw [List.cons_append, need_cons, if_neg hn]
      exact need_app q xs _ _ _ e

theorem need_later {n : Nat} (q : List Byte) : ∀ (p : List Byte) (h k : Nat),
    need n ⟨h, k, p⟩ = none →
      need n ⟨h, k, p ++ q⟩ = need n ⟨(pullAll h k p).hold, (pullAll h k p).bits, q⟩
  | [], h, k, e => rfl
  | x :: xs, h, k, e => by
    rw [need_cons] at e
    split at e
    · simp at e
    · rename_i hn
      rw [List.cons_append, need_cons, if_neg hn, pullAll]
      exact need_later q xs _ _ e

/-- An entry of a table by the lowest bits. -/
def entryOf (t : Table) (root : Nat) (b : Bits) : Option (Entry × Bits) :=
  takeEntry t (fun hold => hold % 2 ^ root) 0 (b.next.length + 1) b

/-- All places are written, and an entry is the same for all that have its bits. -/
structure Steady (t : Table) (root : Nat) : Prop where
  written : ∀ h, ∃ e, t (h % 2 ^ root) = some e
  stable : ∀ h h' e, t (h % 2 ^ root) = some e → h % 2 ^ e.bits = h' % 2 ^ e.bits →
    t (h' % 2 ^ root) = some e

theorem entryOf_nil (t : Table) (root h k : Nat) : entryOf t root ⟨h, k, []⟩ =
    match t (h % 2 ^ root) with
    | none => none
    | some e => if e.bits ≤ k then some (e, ⟨h, k, []⟩) else none := by
  simp only [entryOf, takeEntry, Nat.zero_add, pullByte]
  rfl

theorem entryOf_cons (t : Table) (root h k : Nat) (x : Byte) (xs : List Byte) :
    entryOf t root ⟨h, k, x :: xs⟩ =
    match t (h % 2 ^ root) with
    | none => none
    | some e => if e.bits ≤ k then some (e, ⟨h, k, x :: xs⟩)
        else entryOf t root ⟨h + x.toNat * 2 ^ k, k + 8, xs⟩ := by
  conv_lhs => rw [entryOf, takeEntry]
  simp only [Nat.zero_add, pullByte]
  rfl

theorem entryOf_enough {t : Table} {root h k : Nat} {e : Entry} (he : t (h % 2 ^ root) = some e)
    (hn : e.bits ≤ k) (p : List Byte) : entryOf t root ⟨h, k, p⟩ = some (e, ⟨h, k, p⟩) := by
  cases p with
  | nil => rw [entryOf_nil, he]; simp only [if_pos hn]
  | cons x xs => rw [entryOf_cons, he]; simp only [if_pos hn]

theorem entryOf_app {t : Table} {root : Nat} (q : List Byte) :
    ∀ (p : List Byte) (h k : Nat) (e : Entry) (b' : Bits),
    entryOf t root ⟨h, k, p⟩ = some (e, b') →
      entryOf t root ⟨h, k, p ++ q⟩ = some (e, b'.app q) ∧ t (b'.hold % 2 ^ root) = some e ∧
        e.bits ≤ b'.bits ∧ pullAll h k p = pullAll b'.hold b'.bits b'.next
  | [], h, k, e, b', he => by
    rw [entryOf_nil] at he
    cases ht : t (h % 2 ^ root) with
    | none => rw [ht] at he; simp at he
    | some e0 =>
      rw [ht] at he
      simp only at he
      split at he
      · rename_i hn
        simp only [Option.some.injEq, Prod.mk.injEq] at he
        obtain ⟨rfl, rfl⟩ := he
        exact ⟨entryOf_enough ht hn _, ht, hn, rfl⟩
      · simp at he
  | x :: xs, h, k, e, b', he => by
    rw [entryOf_cons] at he
    cases ht : t (h % 2 ^ root) with
    | none => rw [ht] at he; simp at he
    | some e0 =>
      rw [ht] at he
      simp only at he
      split at he
      · rename_i hn
        simp only [Option.some.injEq, Prod.mk.injEq] at he
        obtain ⟨rfl, rfl⟩ := he
        exact ⟨entryOf_enough ht hn _, ht, hn, rfl⟩
      · rename_i hn
        obtain ⟨i1, i2⟩ := entryOf_app q xs _ _ e b' he
        refine ⟨?_, i2⟩
        rw [List.cons_append, entryOf_cons, ht]
        simp only [if_neg hn]
        exact i1

theorem entryOf_later {t : Table} {root : Nat} (ht : Steady t root) (q : List Byte) :
    ∀ (p : List Byte) (h k : Nat), entryOf t root ⟨h, k, p⟩ = none →
      entryOf t root ⟨h, k, p ++ q⟩ = entryOf t root ⟨(pullAll h k p).hold, (pullAll h k p).bits, q⟩
  | [], h, k, e => rfl
  | x :: xs, h, k, he => by
    obtain ⟨e0, h0⟩ := ht.written h
    rw [entryOf_cons, h0] at he
    simp only at he
    split at he
    · simp at he
    · rename_i hn
      rw [List.cons_append, entryOf_cons, h0, pullAll]
      simp only [if_neg hn]
      exact entryOf_later ht q xs _ _ he

theorem pullAll_app (q : List Byte) : ∀ (p : List Byte) (h k : Nat),
    pullAll h k (p ++ q) = pullAll (pullAll h k p).hold (pullAll h k p).bits q
  | [], _, _ => rfl
  | x :: xs, h, k => by
    rw [List.cons_append, pullAll, pullAll]
    exact pullAll_app q xs _ _

/-- What is pulled is above what is there. -/
theorem pullAll_low : ∀ (p : List Byte) (h k : Nat),
    (pullAll h k p).hold % 2 ^ k = h % 2 ^ k ∧ k ≤ (pullAll h k p).bits
  | [], h, k => ⟨rfl, Nat.le_refl _⟩
  | x :: xs, h, k => by
    obtain ⟨i1, i2⟩ := pullAll_low xs (h + x.toNat * 2 ^ k) (k + 8)
    rw [pullAll]
    refine ⟨?_, by omega⟩
    have hd : 2 ^ k ∣ 2 ^ (k + 8) := Nat.pow_dvd_pow 2 (by omega)
    rw [← Nat.mod_mod_of_dvd _ hd, i1, Nat.mod_mod_of_dvd _ hd, Nat.add_mul_mod_self_right]

/-! ### One step -/

def HeadStep.app (q : List Byte) : HeadStep → HeadStep
  | .wait b => .wait (b.app q)
  | .bad => .bad
  | .done x b => .done x (b.app q)
  | .next m b => .next m (b.app q)

/-- What is kept is in its ranges. -/
def HeadMode.Valid : HeadMode → Prop
  | .table _ => True
  | .lenlens nlen ndist ncode k lens => nlen ≤ 286 ∧ ndist ≤ 30 ∧ ncode ≤ 19 ∧ k ≤ ncode ∧
      ∀ sym < 19, lengthOrder.idxOf sym < k → lens sym ≤ 7
  | .codelens nlen ndist t root lens => nlen ≤ 286 ∧ ndist ≤ 30 ∧ Steady t root ∧
      lens.length ≤ nlen + ndist

/-- How many steps there can be. -/
def HeadMode.weight : HeadMode → Nat
  | .table _ => 390
  | .lenlens _ _ _ k _ => 320 + (20 - k)
  | .codelens nlen ndist _ _ lens => nlen + ndist - lens.length

theorem lenAct_app (nlen ndist : Nat) (t : Table) (root : Nat) (lens : List Nat) (e : Entry) (b : Bits)
    (q : List Byte) :
    lenAct nlen ndist t root lens e (b.app q) = (lenAct nlen ndist t root lens e b).app q := by
  have hd : ∀ (b : Bits) n, dropBits (b.app q) n = (dropBits b n).app q := fun _ _ => rfl
  have hl : ∀ (b : Bits) n, lowBits (b.app q) n = lowBits b n := fun _ _ => rfl
  unfold lenAct
  simp only [hd, hl]
  split_ifs <;> rfl

theorem lenAct_next {nlen ndist : Nat} {t : Table} {root : Nat} {lens : List Nat} {e : Entry} {b b' : Bits}
    {m : HeadMode} (hlt : lens.length < nlen + ndist)
    (h : lenAct nlen ndist t root lens e b = .next m b') :
    ∃ lens', m = .codelens nlen ndist t root lens' ∧ lens.length < lens'.length ∧
      lens'.length ≤ nlen + ndist := by
  unfold lenAct at h
  simp only at h
  split_ifs at h <;> cases h <;> refine ⟨_, rfl, ?_, ?_⟩ <;> simp <;> omega

theorem lenAct_wait {nlen ndist : Nat} {t : Table} {root : Nat} {lens : List Nat} {e : Entry} {b b' : Bits} :
    lenAct nlen ndist t root lens e b ≠ .wait b' := by
  unfold lenAct
  simp only
  split_ifs <;> simp

theorem lenTable_app (nlen ndist ncode : Nat) (lens : Nat → Nat) (b : Bits) (q : List Byte) :
    lenTable nlen ndist ncode lens (b.app q) = (lenTable nlen ndist ncode lens b).app q ∧
      ∀ b', lenTable nlen ndist ncode lens b ≠ .wait b' := by
  unfold lenTable
  split
  · exact ⟨rfl, by simp⟩
  · exact ⟨rfl, by simp⟩

theorem headTables_app (nlen : Nat) (lens : List Nat) (b : Bits) (q : List Byte) :
    headTables nlen lens (b.app q) = (headTables nlen lens b).app q ∧
      ∀ b', headTables nlen lens b ≠ .wait b' := by
  unfold headTables
  split
  · split
    · exact ⟨rfl, by simp⟩
    · exact ⟨rfl, by simp⟩
  · exact ⟨rfl, by simp⟩

theorem headTables_next {nlen : Nat} {lens : List Nat} {b b' : Bits} {m : HeadMode} :
    headTables nlen lens b ≠ .next m b' := by
  unfold headTables
  split
  · split <;> simp
  · simp

/-- With more input a step is the same, or it is the one that is made when the call is made again. -/
theorem headStep_app {m : HeadMode} (hv : m.Valid) (p q : List Byte) (h k : Nat) :
    (headStep m ⟨h, k, p⟩ = .wait (pullAll h k p) ∧
      headStep m ⟨h, k, p ++ q⟩ = headStep m ⟨(pullAll h k p).hold, (pullAll h k p).bits, q⟩) ∨
    ((∀ b', headStep m ⟨h, k, p⟩ ≠ .wait b') ∧
      headStep m ⟨h, k, p ++ q⟩ = (headStep m ⟨h, k, p⟩).app q) := by
  cases m with
  | table old =>
    cases hn : need 14 ⟨h, k, p⟩ with
    | none =>
      refine .inl ⟨by simp only [headStep, hn], ?_⟩
      simp only [headStep, need_later q p h k hn]
      cases need 14 ⟨(pullAll h k p).hold, (pullAll h k p).bits, q⟩ with
      | none => simp only [pullAll_app]
      | some b => rfl
    | some b =>
      refine .inr ⟨?_, ?_⟩
      · intro b'
        simp only [headStep, hn]
        split_ifs <;> simp
      · simp only [headStep, hn, need_app q p h k b hn]
        have hd : ∀ (b : Bits) n, dropBits (b.app q) n = (dropBits b n).app q := fun _ _ => rfl
        have hl : ∀ (b : Bits) n, lowBits (b.app q) n = lowBits b n := fun _ _ => rfl
        simp only [hd, hl]
        split_ifs <;> rfl
  | lenlens nlen ndist ncode j lens =>
    by_cases hj : j < ncode
    · cases hn : need 3 ⟨h, k, p⟩ with
      | none =>
        refine .inl ⟨by simp only [headStep, hn, if_pos hj], ?_⟩
        simp only [headStep, need_later q p h k hn, if_pos hj]
        cases need 3 ⟨(pullAll h k p).hold, (pullAll h k p).bits, q⟩ with
        | none => simp only [pullAll_app]
        | some b => rfl
      | some b =>
        refine .inr ⟨?_, ?_⟩
        · intro b'
          simp [headStep, hn, if_pos hj]
        · simp only [headStep, hn, need_app q p h k b hn, if_pos hj]
          rfl
    · refine .inr ?_
      simp only [headStep, if_neg hj]
      have := lenTable_app nlen ndist ncode lens ⟨h, k, p⟩ q
      exact ⟨this.2, this.1⟩
  | codelens nlen ndist t root lens =>
    have hs : Steady t root := hv.2.2.1
    by_cases hj : lens.length < nlen + ndist
    · have hstep : ∀ b : Bits, headStep (.codelens nlen ndist t root lens) b =
          match entryOf t root b with
          | none => .wait (pullAll b.hold b.bits b.next)
          | some (e, b) =>
            match need (e.bits + lenExtra e.val) b with
            | none => .wait (pullAll b.hold b.bits b.next)
            | some b => lenAct nlen ndist t root lens e b := by
        intro b
        simp only [headStep, if_pos hj]
        rfl
      cases he : entryOf t root ⟨h, k, p⟩ with
      | none =>
        refine .inl ⟨by rw [hstep, he], ?_⟩
        rw [hstep, hstep, entryOf_later hs q p h k he]
        simp only [pullAll_app]
      | some x =>
        obtain ⟨e, b1⟩ := x
        obtain ⟨a1, a2, a3, a4⟩ := entryOf_app q p h k e b1 he
        cases hn : need (e.bits + lenExtra e.val) b1 with
        | none =>
          refine .inl ⟨by rw [hstep, he]; simp only [hn]; rw [a4], ?_⟩
          rw [hstep, hstep, a1]
          have hlow := pullAll_low b1.next b1.hold b1.bits
          have he2 : t ((pullAll h k p).hold % 2 ^ root) = some e := by
            rw [a4]
            refine hs.stable _ _ e a2 ?_
            have hd : 2 ^ e.bits ∣ 2 ^ b1.bits := Nat.pow_dvd_pow 2 a3
            rw [← Nat.mod_mod_of_dvd _ hd, ← hlow.1, Nat.mod_mod_of_dvd _ hd]
          rw [entryOf_enough he2 (by rw [a4]; omega)]
          simp only
          have hl := need_later (n := e.bits + lenExtra e.val) q b1.next b1.hold b1.bits hn
          have hl' : need (e.bits + lenExtra e.val) (b1.app q) =
            need (e.bits + lenExtra e.val) ⟨(pullAll h k p).hold, (pullAll h k p).bits, q⟩ := by
            rw [a4]; exact hl
          rw [hl']
          have hp : pullAll (b1.app q).hold (b1.app q).bits (b1.app q).next =
              pullAll (pullAll h k p).hold (pullAll h k p).bits q := by
            rw [a4]
            exact pullAll_app q b1.next b1.hold b1.bits
          rw [hp]
        | some b2 =>
          refine .inr ⟨?_, ?_⟩
          · intro b'
            rw [hstep, he]
            simp only [hn]
            exact lenAct_wait
          · rw [hstep, hstep, a1, he]
            simp only [hn]
            have hl : need (e.bits + lenExtra e.val) (b1.app q) = some (b2.app q) :=
              need_app q b1.next b1.hold b1.bits b2 hn
            rw [hl]
            exact lenAct_app _ _ _ _ _ _ _ _
    · refine .inr ?_
      simp only [headStep, if_neg hj]
      have := headTables_app nlen lens ⟨h, k, p⟩ q
      exact ⟨this.2, this.1⟩

theorem codes_steady {clens : List Nat} {bits root used : Nat} {t : Table} (hl : ∀ l ∈ clens, l ≤ 15)
    (h : inflateTable .codes clens bits = some (.ok t root used)) : Steady t root := by
  have m := (made_all hl h).1
  refine ⟨?_, fun h h' e he hh => made_stable m he hh⟩
  intro h
  by_cases hb : ∃ sym, BeginsWith clens h sym
  · obtain ⟨s, hb⟩ := hb
    rcases m.has h s hb with ⟨_, a2⟩ | ⟨_, k, v, _, _, a2, _⟩
    · exact ⟨_, a2⟩
    · exact ⟨_, a2⟩
  · exact ⟨_, (m.other h hb).2⟩

theorem headStep_next {m m' : HeadMode} {b b' : Bits} (hv : m.Valid) (h : headStep m b = .next m' b') :
    m'.Valid ∧ m'.weight < m.weight := by
  cases m with
  | table old =>
    simp only [headStep] at h
    split at h
    · cases h
    · split_ifs at h with hc
      cases h
      refine ⟨⟨by omega, by omega, ?_, by omega, fun _ _ h => by omega⟩, ?_⟩
      · have hl : ∀ b : Bits, lowBits b 4 + 4 ≤ 19 := by
          intro b
          have : lowBits b 4 < 2 ^ 4 := Nat.mod_lt _ (by decide)
          omega
        exact hl _
      · simp [HeadMode.weight]
  | lenlens nlen ndist ncode k lens =>
    obtain ⟨v1, v2, v3, v4, v5⟩ := hv
    simp only [headStep] at h
    by_cases hk : k < ncode
    · rw [if_pos hk] at h
      split at h
      · cases h
      · rename_i b1 _
        cases h
        refine ⟨⟨v1, v2, v3, by omega, ?_⟩, by simp only [HeadMode.weight]; omega⟩
        intro sym hs hi
        simp only [upd]
        split
        · have : lowBits b1 3 < 2 ^ 3 := Nat.mod_lt _ (by decide)
          omega
        · rename_i hne
          refine v5 sym hs ?_
          have : lengthOrder.idxOf sym ≠ k := fun h => hne ((order_at (by omega) hs).2 h).symm
          omega
    · rw [if_neg hk] at h
      unfold lenTable at h
      split at h
      · rename_i t root used heq
        cases h
        refine ⟨⟨v1, v2, codes_steady ?_ heq, by simp⟩, by simp only [HeadMode.weight, List.length_nil]; omega⟩
        intro l hl
        obtain ⟨sym, hs, rfl⟩ := List.mem_map.mp hl
        have hs := List.mem_range.mp hs
        rw [zeroLens_spec 19 ncode lens (by omega) sym hs]
        split
        · omega
        · have := v5 sym hs (by omega)
          omega
      · cases h
  | codelens nlen ndist t root lens =>
    obtain ⟨v1, v2, v3, v4⟩ := hv
    simp only [headStep] at h
    by_cases hk : lens.length < nlen + ndist
    · rw [if_pos hk] at h
      split at h
      · cases h
      · split at h
        · cases h
        · obtain ⟨lens', rfl, g1, g2⟩ := lenAct_next hk h
          exact ⟨⟨v1, v2, v3, g2⟩, by simp only [HeadMode.weight]; omega⟩
    · rw [if_neg hk] at h
      exact absurd h headTables_next

/-! ### Calls -/

def HeadStop.app (q : List Byte) : HeadStop → HeadStop
  | .wait m b => .wait m (b.app q)
  | .bad => .bad
  | .done x b => .done x (b.app q)

def HeadStop.read : HeadStop → Read Tables
  | .wait _ _ => .more
  | .bad => .bad
  | .done x b => .ok x b

theorem runHead_mono : ∀ (f g : Nat) (m : HeadMode) (b : Bits) (r : HeadStop), runHead f m b = some r →
    f ≤ g → runHead g m b = some r
  | 0, _, _, _, _, h, _ => by simp [runHead] at h
  | f + 1, 0, _, _, _, _, hg => by omega
  | f + 1, g + 1, m, b, r, h, hg => by
    rw [runHead] at h ⊢
    cases hs : headStep m b with
    | wait b' => rw [hs] at h; exact h
    | bad => rw [hs] at h; exact h
    | done x b' => rw [hs] at h; exact h
    | next m' b' => rw [hs] at h; exact runHead_mono f g m' b' r h (by omega)

theorem runHead_total : ∀ (f : Nat) (m : HeadMode) (b : Bits), m.Valid → m.weight < f →
    ∃ r, runHead f m b = some r
  | 0, _, _, _, h => by omega
  | f + 1, m, b, hv, h => by
    rw [runHead]
    cases hs : headStep m b with
    | wait b' => exact ⟨_, rfl⟩
    | bad => exact ⟨_, rfl⟩
    | done x b' => exact ⟨_, rfl⟩
    | next m' b' =>
      obtain ⟨g1, g2⟩ := headStep_next hv hs
      exact runHead_total f m' b' g1 (by omega)

/-- With more input a call does the same, or what both calls do. -/
theorem runHead_app (q : List Byte) : ∀ (f : Nat) (m : HeadMode) (h k : Nat) (p : List Byte), m.Valid →
    ∀ r, runHead f m ⟨h, k, p⟩ = some r →
      match r with
      | .wait m' b' => m'.Valid ∧ b'.next = [] ∧ ∀ g r', runHead g m' ⟨b'.hold, b'.bits, q⟩ = some r' →
          runHead (f + g) m ⟨h, k, p ++ q⟩ = some r'
      | r => runHead f m ⟨h, k, p ++ q⟩ = some (r.app q)
  | 0, _, _, _, _, _, r, e => by simp [runHead] at e
  | f + 1, m, h, k, p, hv, r, e => by
    rw [runHead] at e
    rcases headStep_app hv p q h k with ⟨h1, h2⟩ | ⟨h1, h2⟩
    · rw [h1] at e
      simp only [Option.some.injEq] at e
      subst e
      refine ⟨hv, by rw [pullAll_eq], fun g r' hr => ?_⟩
      cases g with
      | zero => simp [runHead] at hr
      | succ g =>
        rw [runHead] at hr
        rw [show f + 1 + (g + 1) = (f + g + 1) + 1 by omega, runHead, h2]
        cases hs : headStep m ⟨(pullAll h k p).hold, (pullAll h k p).bits, q⟩ with
        | wait b' => rw [hs] at hr; exact hr
        | bad => rw [hs] at hr; exact hr
        | done x b' => rw [hs] at hr; exact hr
        | next m' b' => rw [hs] at hr; exact runHead_mono g _ m' b' r' hr (by omega)
    · cases hs : headStep m ⟨h, k, p⟩ with
      | wait b' => exact absurd hs (h1 b')
      | bad =>
        rw [hs] at e h2
        simp only [Option.some.injEq] at e
        subst e
        simp only [runHead, h2, HeadStep.app, HeadStop.app]
      | done x b' =>
        rw [hs] at e h2
        simp only [Option.some.injEq] at e
        subst e
        simp only [runHead, h2, HeadStep.app, HeadStop.app]
      | next m1 b1 =>
        rw [hs] at e h2
        simp only at e
        have ih := runHead_app q f m1 b1.hold b1.bits b1.next (headStep_next hv hs).1 r e
        cases r with
        | wait m' b' =>
          refine ⟨ih.1, ih.2.1, fun g r' hr => ?_⟩
          rw [show f + 1 + g = (f + g) + 1 by omega, runHead, h2]
          exact ih.2.2 g r' hr
        | bad => rw [runHead, h2]; exact ih
        | done x b' => rw [runHead, h2]; exact ih

theorem weight_lt {m : HeadMode} (hv : m.Valid) : m.weight < 400 := by
  cases m with
  | table _ => simp [HeadMode.weight]
  | lenlens _ _ _ k _ => simp only [HeadMode.weight]; omega
  | codelens nlen ndist _ _ lens =>
    have h1 := hv.1
    have h2 := hv.2.1
    simp only [HeadMode.weight]; omega

theorem headPieces_spec : ∀ (pieces : List (List Byte)) (m : HeadMode) (b : Bits) (f : Nat) (r : HeadStop),
    m.Valid → pieces ≠ [] → runHead f m ⟨b.hold, b.bits, pieces.flatten⟩ = some r →
    headPieces m b pieces = some r.read
  | [], _, _, _, _, _, h, _ => absurd rfl h
  | p :: ps, m, b, f, r, hv, _, hr => by
    obtain ⟨r1, h1⟩ := runHead_total 400 m ⟨b.hold, b.bits, p⟩ hv (weight_lt hv)
    have ha := runHead_app ps.flatten 400 m b.hold b.bits p hv r1 h1
    have hr' := runHead_mono f (f + 400 + 400) _ _ _ hr (by omega)
    rw [List.flatten_cons] at hr'
    rw [headPieces, h1]
    cases r1 with
    | bad =>
      have := runHead_mono _ (f + 400 + 400) _ _ _ ha (by omega)
      rw [this] at hr'
      simp only [Option.some.injEq] at hr'
      subst hr'
      rfl
    | done x b' =>
      have := runHead_mono _ (f + 400 + 400) _ _ _ ha (by omega)
      rw [this] at hr'
      simp only [Option.some.injEq] at hr'
      subst hr'
      rfl
    | wait m' b' =>
      obtain ⟨i1, i2, i3⟩ := ha
      obtain ⟨r2, h2⟩ := runHead_total 400 m' ⟨b'.hold, b'.bits, ps.flatten⟩ i1 (weight_lt i1)
      have := runHead_mono _ (f + 400 + 400) _ _ _ (i3 400 r2 h2) (by omega)
      rw [this] at hr'
      simp only [Option.some.injEq] at hr'
      subst hr'
      simp only
      by_cases hps : ps = []
      · subst hps
        have h3 := runHead_mono _ (f + 400 + 400) _ _ _ h1 (by omega)
        rw [List.flatten_nil, List.append_nil, h3] at this
        simp only [Option.some.injEq] at this
        subst this
        rfl
      · exact headPieces_spec ps m' b' 400 r2 i1 hps h2

/-! ### The head in one piece -/

/-- What the tables lead to. -/
def tablesRead (nlen : Nat) : Read (List Nat) → Read Tables
  | .more => .more
  | .bad => .bad
  | .ok lens b =>
    match inflateTable .lens (lens.take nlen) 9 with
    | some (.ok lt lroot _) =>
      match inflateTable .dists (lens.drop nlen) 6 with
      | some (.ok dt droot _) => .ok ⟨lt, lroot, dt, droot⟩ b
      | _ => .bad
    | _ => .bad

theorem codelens_read {nlen ndist : Nat} {t : Table} {root : Nat} :
    ∀ (fuel f : Nat) (lens : List Nat) (b : Bits), lens.length ≤ nlen + ndist →
      nlen + ndist - lens.length < fuel → nlen + ndist - lens.length < f →
      ∃ R, runHead f (.codelens nlen ndist t root lens) b = some R ∧
        R.read = tablesRead nlen (codeLens t root (nlen + ndist) fuel lens b)
  | 0, _, _, _, _, h, _ => by omega
  | _ + 1, 0, _, _, _, _, h => by omega
  | fuel + 1, f + 1, lens, b, hl, h1, h2 => by
    rw [runHead, codeLens.eq_2]
    simp only [headStep]
    by_cases hlt : lens.length < nlen + ndist
    · simp only [if_pos hlt]
      cases takeEntry t (fun hold => hold % 2 ^ root) 0 (b.next.length + 1) b with
      | none => exact ⟨_, rfl, rfl⟩
      | some x =>
        obtain ⟨e, b1⟩ := x
        simp only
        unfold lenExtra lenAct
        by_cases e1 : e.val < 16
        · simp only [if_pos e1, Nat.add_zero]
          cases need e.bits b1 with
          | none => exact ⟨_, rfl, rfl⟩
          | some b2 =>
            exact codelens_read fuel f (lens ++ [e.val]) _ (by simp; omega) (by simp; omega)
              (by simp; omega)
        · simp only [if_neg e1]
          by_cases e2 : e.val = 16
          · simp only [if_pos e2]
            cases need (e.bits + 2) b1 with
            | none => exact ⟨_, rfl, rfl⟩
            | some b2 =>
              simp only
              by_cases c1 : lens.length = 0
              · simp only [if_pos c1]
                exact ⟨_, rfl, rfl⟩
              · simp only [if_neg c1]
                split_ifs with c2
                · exact ⟨_, rfl, rfl⟩
                · exact codelens_read fuel f _ _ (by simp; omega) (by simp; omega) (by simp; omega)
          · simp only [if_neg e2]
            by_cases e3 : e.val = 17
            · simp only [if_pos e3]
              cases need (e.bits + 3) b1 with
              | none => exact ⟨_, rfl, rfl⟩
              | some b2 =>
                simp only
                split_ifs with c2
                · exact ⟨_, rfl, rfl⟩
                · exact codelens_read fuel f _ _ (by simp; omega) (by simp; omega) (by simp; omega)
            · simp only [if_neg e3]
              cases need (e.bits + 7) b1 with
              | none => exact ⟨_, rfl, rfl⟩
              | some b2 =>
                simp only
                split_ifs with c2
                · exact ⟨_, rfl, rfl⟩
                · exact codelens_read fuel f _ _ (by simp; omega) (by simp; omega) (by simp; omega)
    · simp only [if_neg hlt, headTables, tablesRead]
      cases inflateTable .lens (lens.take nlen) 9 with
      | none => exact ⟨_, rfl, rfl⟩
      | some x =>
        cases x with
        | invalid => exact ⟨_, rfl, rfl⟩
        | space => exact ⟨_, rfl, rfl⟩
        | ok lt lroot lused =>
          simp only
          cases inflateTable .dists (lens.drop nlen) 6 with
          | none => exact ⟨_, rfl, rfl⟩
          | some x =>
            cases x with
            | invalid => exact ⟨_, rfl, rfl⟩
            | space => exact ⟨_, rfl, rfl⟩
            | ok dt droot dused => exact ⟨_, rfl, rfl⟩

/-- What the lengths of the code for lengths lead to. -/
def codesRead (nlen ndist ncode : Nat) : Read (Nat → Nat) → Read Tables
  | .more => .more
  | .bad => .bad
  | .ok lens b =>
    match inflateTable .codes ((List.range 19).map (zeroLens 19 ncode lens)) 7 with
    | some (.ok t root _) =>
      tablesRead nlen (codeLens t root (nlen + ndist) (nlen + ndist + 1) [] b)
    | _ => .bad

theorem lentable_read (nlen ndist ncode f : Nat) (lens : Nat → Nat) (b : Bits)
    (hf : nlen + ndist < f) {k : Nat} (hk : ¬ k < ncode) :
    ∃ R, runHead (f + 1) (.lenlens nlen ndist ncode k lens) b = some R ∧
      R.read = codesRead nlen ndist ncode (.ok lens b) := by
  rw [runHead]
  simp only [headStep, if_neg hk, lenTable, codesRead]
  cases inflateTable .codes ((List.range 19).map (zeroLens 19 ncode lens)) 7 with
  | none => exact ⟨_, rfl, rfl⟩
  | some x =>
    cases x with
    | invalid => exact ⟨_, rfl, rfl⟩
    | space => exact ⟨_, rfl, rfl⟩
    | ok t root used =>
      exact codelens_read (nlen + ndist + 1) f [] b (by simp) (by simp) (by simp; omega)

theorem lenlens_read {nlen ndist ncode : Nat} (hn : ncode ≤ 19) :
    ∀ (fuel k f : Nat) (lens : Nat → Nat) (b : Bits), 19 ≤ k + fuel → nlen + ndist + fuel + 1 < f →
      ∃ R, runHead f (.lenlens nlen ndist ncode k lens) b = some R ∧
        R.read = codesRead nlen ndist ncode (lenLens ncode fuel k lens b)
  | _, _, 0, _, _, _, h => by omega
  | 0, k, f + 1, lens, b, hk, hf => by
    exact lentable_read nlen ndist ncode f lens b (by omega) (by omega)
  | fuel + 1, k, f + 1, lens, b, hk, hf => by
    by_cases hlt : k < ncode
    · rw [runHead, lenLens]
      simp only [headStep, if_pos hlt]
      cases need 3 b with
      | none => exact ⟨_, rfl, rfl⟩
      | some b1 => exact lenlens_read hn fuel (k + 1) f _ _ (by omega) (by omega)
    · rw [lenLens, if_neg hlt]
      exact lentable_read nlen ndist ncode f lens b (by omega) hlt

theorem table_read (old : Nat → Nat) (b : Bits) :
    ∃ R, runHead 400 (.table old) b = some R ∧ R.read = readHeader old b := by
  rw [show 400 = 399 + 1 by rfl, runHead, readHeader]
  simp only [headStep]
  cases need 14 b with
  | none => exact ⟨_, rfl, rfl⟩
  | some b1 =>
    simp only
    have hn : ∀ b : Bits, lowBits b 4 + 4 ≤ 19 := by
      intro b
      have : lowBits b 4 < 2 ^ 4 := Nat.mod_lt _ (by decide)
      omega
    have hn := hn (dropBits (dropBits b1 5) 5)
    generalize lowBits (dropBits (dropBits b1 5) 5) 4 + 4 = ncode at *
    generalize lowBits b1 5 + 257 = nlen at *
    generalize lowBits (dropBits b1 5) 5 + 1 = ndist at *
    generalize dropBits (dropBits (dropBits b1 5) 5) 4 = b2 at *
    by_cases hc : nlen > 286 ∨ ndist > 30
    · simp only [if_pos hc]
      exact ⟨_, rfl, rfl⟩
    · simp only [if_neg hc]
      obtain ⟨R, r1, r2⟩ := lenlens_read (nlen := nlen) (ndist := ndist) hn 19 0 399 old b2 (by omega)
        (by omega)
      refine ⟨R, r1, ?_⟩
      rw [r2]
      cases lenLens ncode 19 0 old b2 with
      | more => rfl
      | bad => rfl
      | ok lens b3 =>
        simp only [codesRead]
        cases inflateTable .codes ((List.range 19).map (zeroLens 19 ncode lens)) 7 with
        | none => rfl
        | some x =>
          cases x with
          | ok t root used =>
            simp only
            cases codeLens t root (nlen + ndist) (nlen + ndist + 1) [] b3 with
            | more => rfl
            | bad => rfl
            | ok lens b4 => rfl
          | invalid => rfl
          | space => rfl

end Verif.Zlib
