import Verif.Gobio.Compiled

/-!
Jumps of the compiled code lead forward.  Helper lemmas for Props.lean.
-/
set_option linter.unusedSimpArgs false
set_option linter.unusedVariables false
namespace Verif.Gobio
open Verif
variable {R : Type} {ctx : Ctx}

/-- Where an instruction may jump to. -/
def Instr.target : Instr → Option Int
  | .ifJump t => some t
  | .ifnJump t => some t
  | .jump t => some t
  | _ => none

/-- The part of the code from `b` on: jumps go forward and not beyond the end. -/
def Fwd (c : Code) (b : Nat) : Prop := ∀ i t x, b ≤ i → c[i]? = some x → x.target = some t → (i : Int) < t ∧ t ≤ c.length

structure Ahead (c c' : Comp R) : Prop where
  pre : c'.code.take (base c.code) = c.code.take (base c.code)
  len : base c.code < c'.code.length
  last : isTopPop c'.code = false
  lastElse : c'.lastElse = -1 ∨ (base c.code : Int) < c'.lastElse ∧ c'.lastElse ≤ c'.code.length
  fwd : Fwd c'.code (base c.code)

theorem fwd_emit {c : Code} {b : Nat} {i : Instr} (h : Fwd c b) (hi : i.target = none) : Fwd (c ++ [i]) b := by
  intro j t x hj hx ht
  rw [List.getElem?_append] at hx
  split at hx
  · have := h j t x hj hx ht
    refine ⟨this.1, ?_⟩
    simp
    omega
  · rename_i hlt
    have : j = c.length := by
      by_contra hne
      rw [List.getElem?_eq_none (by simp; omega)] at hx
      cases hx
    subst this
    simp at hx
    subst hx
    rw [hi] at ht
    cases ht

theorem fwd_self (c : Code) : Fwd c (base c) := by
  intro j t x hj hx ht
  exfalso
  by_cases h : isTopPop c = true
  · obtain ⟨d, rfl⟩ := topPop_elim h
    have hb : base (d ++ [.pop]) = d.length := by simp [base, h]
    rw [hb] at hj
    have : j = d.length := by
      by_contra hne
      rw [List.getElem?_eq_none (by simp; omega)] at hx
      cases hx
    subst this
    simp at hx
    subst hx
    cases ht
  · simp only [Bool.not_eq_true] at h
    rw [base_of_not h] at hj
    rw [List.getElem?_eq_none hj] at hx
    cases hx

theorem ahead_emit (c : Comp R) (i : Instr) (ts : List R) (hi : i.target = none) (hp : i ≠ .pop) :
    Ahead c { c.emit i with trees := ts } := by
  have := base_le c.code
  refine ⟨?_, ?_, ?_, Or.inl rfl, ?_⟩
  · simp only [Comp.emit]
    rw [List.take_append_of_le_length this]
  · simp [Comp.emit]; omega
  · simp only [Comp.emit, topPop_emit]; simpa using hp
  · exact fwd_emit (fwd_self c.code) hi

theorem ahead_leaf (c : Comp R) (p q : Instr) (hp : p.target = none) (hp' : p ≠ .pop) (hq : q.target = none) (hq' : q ≠ .pop) :
    Ahead c (c.leaf p q) := by
  unfold Comp.leaf
  split
  · rename_i h
    obtain ⟨d, hd⟩ := topPop_elim h
    have hb : base c.code = d.length := by simp [base, h]; rw [hd]; simp
    have hdl : c.code.dropLast = d := by rw [hd]; simp
    refine ⟨?_, ?_, ?_, Or.inl rfl, ?_⟩
    · simp only [hdl, hb]
      rw [hd]; simp
    · simp [hb, hdl]
    · simp only [topPop_emit]
      simpa using hq'
    · simp only [hdl, hb]
      refine fwd_emit ?_ hq
      intro j t x hj hx ht
      rw [List.getElem?_eq_none hj] at hx
      cases hx
  · exact ahead_emit c p c.trees hp hp'

theorem Ahead.emit {c c1 : Comp R} (h : Ahead c c1) (i : Instr) (hi : i.target = none) (hp : i ≠ .pop) : Ahead c (c1.emit i) := by
  have := h.len
  refine ⟨?_, ?_, ?_, Or.inl rfl, ?_⟩
  · simp only [Comp.emit]
    rw [List.take_append_of_le_length (by omega)]
    exact h.pre
  · simp [Comp.emit]; omega
  · simp only [Comp.emit, topPop_emit]; simpa using hp
  · exact fwd_emit h.fwd hi

/-- Two pieces of code, with instructions `js` between them, of which the last may be `POP`. -/
theorem fwd_join {c1 c2 : Code} {b m : Nat} (h1 : Fwd c1 b) (hl : m ≤ c2.length) (hm : c1.length ≤ m)
    (hp : c2.take c1.length = c1) (h2 : Fwd c2 m)
    (hj : ∀ i t x, c1.length ≤ i → i < m → c2[i]? = some x → x.target = some t → (i : Int) < t ∧ t ≤ c2.length) : Fwd c2 b := by
  intro i t x hi hx ht
  by_cases h : i < c1.length
  · have : c1[i]? = some x := by
      rw [← hp, List.getElem?_take_of_lt h]; exact hx
    have := h1 i t x hi this ht
    omega
  · by_cases h' : i < m
    · exact hj i t x (by omega) h' hx ht
    · exact h2 i t x (by omega) hx ht

theorem fwd_set {c : Code} {b k : Nat} {i : Instr} {t : Int} (h : Fwd c b) (hi : i.target = some t) (h1 : (k : Int) < t) (h2 : t ≤ c.length) :
    Fwd (c.set k i) b := by
  intro j u x hj hx hu
  rw [List.length_set]
  rw [List.getElem?_set] at hx
  split at hx
  · rename_i hk
    subst hk
    split at hx
    · cases hx
      rw [hi] at hu
      cases hu
      exact ⟨h1, h2⟩
    · cases hx
  · exact h j u x hj hx hu

theorem Ahead.seq {c c1 c2 : Comp R} (h1 : Ahead c c1) (h2 : Ahead c1 c2) : Ahead c c2 := by
  have hb := base_of_not h1.last
  have l1 := h1.len
  have l2 := h2.len
  rw [hb] at l2
  have p2 := h2.pre
  rw [hb] at p2
  simp only [List.take_length] at p2
  have e2 := h2.lastElse
  refine ⟨pre_trans h1.pre (by omega) p2, by omega, h2.last, by omega, ?_⟩
  have f2 := h2.fwd
  rw [hb] at f2
  exact fwd_join h1.fwd (by omega) (Nat.le_refl _) p2 f2 (by intros; omega)

/-- A conditional jump between two pieces. -/
theorem Ahead.branch {c c1 c2 : Comp R} (b : Bool) (h1 : Ahead c c1)
    (h2 : Ahead ((c1.emit (if b then .ifnJump (-1) else .ifJump (-1))).emit .pop) c2) (t : Int)
    (ht : t = c2.code.length ∨ t = c2.lastElse ∧ 0 ≤ c2.lastElse) :
    Ahead c { c2 with code := setTarget c2.code c1.code.length t, lastElse := -1 } := by
  have hp : isTopPop ((c1.emit (if b then .ifnJump (-1) else .ifJump (-1))).emit .pop).code = true := by
    simp [Comp.emit, isTopPop]
  have hb : base ((c1.emit (if b then .ifnJump (-1) else .ifJump (-1))).emit .pop).code = c1.code.length + 1 := by
    simp only [base, hp, if_true]
    simp [Comp.emit]
  have hpre := h2.pre
  rw [hb] at hpre
  have hpre' : c2.code.take (c1.code.length + 1) = c1.code ++ [if b then .ifnJump (-1) else .ifJump (-1)] := by
    rw [hpre]
    simp only [Comp.emit]
    rw [List.take_left' (by simp)]
  obtain ⟨q1, q2⟩ := take_snoc hpre'
  have l1 := h1.len
  have l2 := h2.len
  have e2 := h2.lastElse
  have f2 := h2.fwd
  rw [hb] at l2 e2 f2
  have ht1 : (c1.code.length : Int) < t := by omega
  have ht2 : t ≤ c2.code.length := by omega
  rw [setTarget_eq q2]
  refine ⟨?_, ?_, ?_, Or.inl rfl, ?_⟩
  · refine pre_trans h1.pre (by omega) ?_
    show (c2.code.set _ _).take _ = _
    rw [List.take_set, q1, List.set_eq_of_length_le (Nat.le_refl _)]
  · simp; omega
  · exact topPop_set (by cases b <;> simp) h2.last
  · show Fwd (c2.code.set _ _) _
    intro i u x hi hx hu
    rw [List.length_set]
    rw [List.getElem?_set] at hx
    split at hx
    · rename_i hk
      subst hk
      rw [if_pos (by omega)] at hx
      cases hx
      have : u = t := by cases b <;> simp [Instr.target] at hu <;> exact hu.symm
      omega
    · rename_i hk
      by_cases h : i < c1.code.length
      · have hx' : c1.code[i]? = some x := by
          rw [← q1, List.getElem?_take_of_lt h]; exact hx
        have := h1.fwd i u x hi hx' hu
        omega
      · exact f2 i u x (by omega) hx hu

theorem Ahead.always {c c1 c2 : Comp R} (h1 : Ahead c c1) (h2 : Ahead (c1.emit .pop) c2) : Ahead c { c2 with lastElse := -1 } := by
  have hp : isTopPop (c1.emit .pop).code = true := by
    simp [Comp.emit, isTopPop]
  have hb : base (c1.emit .pop).code = c1.code.length := by
    simp only [base, hp, if_true]
    simp [Comp.emit]
  have hpre := h2.pre
  rw [hb] at hpre
  have q1 : c2.code.take c1.code.length = c1.code := by
    rw [hpre]
    simp only [Comp.emit]
    rw [List.take_left' rfl]
  have l1 := h1.len
  have l2 := h2.len
  have f2 := h2.fwd
  rw [hb] at l2 f2
  refine ⟨pre_trans h1.pre (by omega) q1, (by show base c.code < c2.code.length; omega), h2.last, Or.inl rfl, ?_⟩
  exact fwd_join (c2 := c2.code) h1.fwd (by omega) (Nat.le_refl _) q1 f2 (by intros; omega)

theorem Ahead.jump {c c1 c2 : Comp R} (h1 : Ahead c c1) (h2 : Ahead (c1.emit (.jump (-1))) c2) :
    Ahead c { c2 with code := setTarget c2.code c1.code.length c2.code.length, lastElse := (c1.code.length : Int) + 1 } := by
  have hp : isTopPop (c1.emit (.jump (-1))).code = false := by
    simp [Comp.emit, isTopPop]
  have hb : base (c1.emit (.jump (-1))).code = c1.code.length + 1 := by
    rw [base_of_not hp]; simp [Comp.emit]
  have hpre := h2.pre
  rw [hb] at hpre
  have hpre' : c2.code.take (c1.code.length + 1) = c1.code ++ [.jump (-1)] := by
    rw [hpre]
    simp only [Comp.emit]
    rw [List.take_of_length_le (by simp)]
  obtain ⟨q1, q2⟩ := take_snoc hpre'
  have l1 := h1.len
  have l2 := h2.len
  have f2 := h2.fwd
  rw [hb] at l2 f2
  have e1 : setTarget c2.code c1.code.length c2.code.length = c2.code.set c1.code.length (.jump c2.code.length) := by
    simp only [setTarget, q2]
  rw [e1]
  refine ⟨?_, ?_, ?_, ?_, ?_⟩
  · refine pre_trans h1.pre (by omega) ?_
    show (c2.code.set _ _).take _ = _
    rw [List.take_set, q1, List.set_eq_of_length_le (Nat.le_refl _)]
  · simp; omega
  · exact topPop_set (by simp) h2.last
  · right
    simp
    omega
  · show Fwd (c2.code.set _ _) _
    intro i u x hi hx hu
    rw [List.length_set]
    rw [List.getElem?_set] at hx
    split at hx
    · rename_i hk
      subst hk
      rw [if_pos (by omega)] at hx
      cases hx
      simp only [Instr.target, Option.some.injEq] at hu
      omega
    · rename_i hk
      by_cases h : i < c1.code.length
      · have hx' : c1.code[i]? = some x := by
          rw [← q1, List.getElem?_take_of_lt h]; exact hx
        have := h1.fwd i u x hi hx' hu
        omega
      · exact f2 i u x (by omega) hx hu

theorem Ahead.noElse {c c1 : Comp R} (h : Ahead c c1) : Ahead c { c1 with lastElse := -1 } := ⟨h.pre, h.len, h.last, Or.inl rfl, h.fwd⟩

theorem ahead_other {op : BiOp} {l r : Node R} (ihl : ∀ c c' : Comp R, comp ctx l c = some c' → Ahead c c')
    (ihr : ∀ c c' : Comp R, comp ctx r c = some c' → Ahead c c') {c c' : Comp R} (P : Prop) [Decidable P]
    (h : (comp ctx l c).bind (fun c =>
      if P then (comp ctx r c).map (·.emit .triSem)
      else if isConst r then some (c.emit (opConst (toConst ctx r) op))
      else (comp ctx r c).map (·.emit (opInstr op))) = some c') : Ahead c c' := by
  simp only [Option.bind_eq_some_iff] at h
  obtain ⟨c1, h1, h⟩ := h
  have a1 := ihl _ _ h1
  split at h
  · simp only [Option.map_eq_some_iff] at h
    obtain ⟨c2, h2, rfl⟩ := h
    exact (a1.seq (ihr _ _ h2)).emit _ rfl (by simp)
  · split at h
    · cases h
      exact a1.emit _ (by cases op <;> rfl) (by cases op <;> simp [opConst])
    · simp only [Option.map_eq_some_iff] at h
      obtain ⟨c2, h2, rfl⟩ := h
      exact (a1.seq (ihr _ _ h2)).emit _ (by cases op <;> rfl) (by cases op <;> simp [opInstr])

theorem ahead (e : Node R) : ∀ c c' : Comp R, comp ctx e c = some c' → Ahead c c' := by
  induction e with
  | number n => intro c c' h; simp only [comp, Option.some.injEq] at h; subst h; exact ahead_leaf _ _ _ rfl (by simp) rfl (by simp)
  | atom s => intro c c' h; simp only [comp, Option.some.injEq] at h; subst h; exact ahead_leaf _ _ _ rfl (by simp) rfl (by simp)
  | «attribute» a => intro c c' h; simp only [comp, Option.some.injEq] at h; subst h; exact ahead_leaf _ _ _ rfl (by simp) rfl (by simp)
  | subAttribute s n a =>
    intro c c' h
    simp only [comp, Option.map_eq_some_iff] at h
    obtain ⟨ix, _, rfl⟩ := h
    exact ahead_leaf _ _ _ rfl (by simp) rfl (by simp)
  | mono op l ih =>
    intro c c' h
    cases op <;> simp only [comp, Option.map_eq_some_iff] at h <;> obtain ⟨c1, h1, rfl⟩ := h
    · exact (ih _ _ h1).emit _ rfl (by simp)
    · exact (ih _ _ h1).emit _ rfl (by simp)
  | treeChoice r => intro c c' h; simp only [comp, Option.some.injEq] at h; subst h; exact ahead_emit _ _ _ rfl (by simp)
  | setScore s => intro c c' h; simp only [comp, Option.some.injEq] at h; subst h; exact ahead_emit _ _ _ rfl (by simp)
  | bi op l r ihl ihr =>
    intro c c' h
    cases op with
    | and =>
      simp only [comp, Option.bind_eq_some_iff, Option.map_eq_some_iff] at h
      obtain ⟨c1, h1, c2, h2, rfl⟩ := h
      have a1 := ihl _ _ h1
      have a2 := ihr _ _ h2
      unfold beforeAnd at a2 ⊢
      split
      · rename_i hd
        rw [if_pos hd] at a2
        exact a1.always a2
      · rename_i hd
        rw [if_neg hd] at a2
        exact a1.branch true a2 _ (Or.inl rfl)
    | or =>
      simp only [comp, Option.bind_eq_some_iff, Option.map_eq_some_iff] at h
      obtain ⟨c1, h1, c2, h2, rfl⟩ := h
      exact (ihl _ _ h1).branch false (ihr _ _ h2) _ (Or.inl rfl)
    | implication =>
      simp only [comp, Option.bind_eq_some_iff, Option.map_eq_some_iff] at h
      obtain ⟨c1, h1, c2, h2, rfl⟩ := h
      have a1 := (ihl _ _ h1).emit .not rfl (by simp)
      have hl1 : (c1.emit .not).code.length = c1.code.length + 1 := by simp [Comp.emit]
      have := a1.branch false (ihr _ _ h2) (if 0 ≤ c2.lastElse then c2.lastElse else c2.code.length) (by split <;> simp_all)
      rw [hl1] at this
      exact this
    | else_ =>
      simp only [comp, Option.bind_eq_some_iff, Option.map_eq_some_iff] at h
      obtain ⟨c1, h1, c2, h2, rfl⟩ := h
      exact (ihl _ _ h1).jump (ihr _ _ h2)
    | binarg =>
      simp only [comp, Option.bind_eq_some_iff] at h
      obtain ⟨c1, h1, h⟩ := h
      split at h
      · cases h
        exact (ihl _ _ h1).noElse
      · simp only [Option.map_eq_some_iff] at h
        obtain ⟨c2, h2, rfl⟩ := h
        exact ((ihl _ _ h1).seq (ihr _ _ h2)).noElse
    | assign =>
      simp only [comp, Option.bind_eq_some_iff] at h
      obtain ⟨a, _, h⟩ := h
      split at h
      · cases h
        exact ahead_emit _ _ _ rfl (by simp)
      · simp only [Option.map_eq_some_iff] at h
        obtain ⟨c2, h2, rfl⟩ := h
        exact (ihr _ _ h2).emit _ rfl (by simp)
    | uassign =>
      simp only [comp, Option.bind_eq_some_iff] at h
      obtain ⟨a, _, h⟩ := h
      split at h
      · cases h
        exact ahead_emit _ _ _ rfl (by simp)
      · simp only [Option.map_eq_some_iff] at h
        obtain ⟨c2, h2, rfl⟩ := h
        exact (ihr _ _ h2).emit _ rfl (by simp)
    | equal => rw [comp] at h <;> first | exact ahead_other ihl ihr _ h | simp
    | notEqual => rw [comp] at h <;> first | exact ahead_other ihl ihr _ h | simp
    | uequal => rw [comp] at h <;> first | exact ahead_other ihl ihr _ h | simp
    | hooking => rw [comp] at h <;> first | exact ahead_other ihl ihr _ h | simp
    | sum => rw [comp] at h <;> first | exact ahead_other ihl ihr _ h | simp
    | sem => rw [comp] at h <;> first | exact ahead_other ihl ihr _ h | simp

/-! ### Forward jumps: it ends -/

theorem step_pc {M : Sem} {C : Code} (hC : Fwd C 0) {s t : State} (h : step M C s = .next t) : s.pc < t.pc ∧ s.pc < C.length := by
  have hlt : s.pc < C.length := by
    by_contra hh
    unfold step at h
    rw [List.getElem?_eq_none (by omega)] at h
    cases h
  refine ⟨?_, hlt⟩
  unfold step at h
  split at h
  · cases h
  · cases h
  · rename_i i hx
    have := hC s.pc i _ (by omega) hx rfl
    unfold goto at h
    split at h
    · cases h
    · cases h
      simp; omega
  · rename_i i hx
    have := hC s.pc i _ (by omega) hx rfl
    split at h
    · cases h
    · split at h
      · unfold goto at h
        split at h
        · cases h
        · cases h
          simp; omega
      · cases h
        simp
  · rename_i i hx
    have := hC s.pc i _ (by omega) hx rfl
    split at h
    · cases h
    · split at h
      · unfold goto at h
        split at h
        · cases h
        · cases h
          simp; omega
      · cases h
        simp
  · split at h
    · cases h
    · cases h
      simp

theorem loop_ends {M : Sem} {C : Code} (hC : Fwd C 0) : ∀ k s n, C.length < s.pc + k → k ≤ n → loop M C n s = loop M C k s := by
  intro k
  induction k with
  | zero =>
    intro s n hl _
    cases n with
    | zero => rfl
    | succ n =>
      rw [loop, loop]
      unfold step
      rw [List.getElem?_eq_none (by omega)]
  | succ k ih =>
    intro s n hl hn
    obtain ⟨n, rfl⟩ : ∃ m, n = m + 1 := ⟨n - 1, by omega⟩
    rw [loop, loop]
    cases h : step M C s with
    | next t =>
      have := step_pc hC h
      simp only
      exact ih t n (by omega) (by omega)
    | halt => rfl
    | fault => rfl

end Verif.Gobio
