import Verif.Gobio.Lemmas

/-!
The compiled code does what the condition means.  Helper lemmas for Props.lean.
-/
set_option linter.unusedSimpArgs false
set_option linter.unusedVariables false
namespace Verif.Gobio
open Verif
variable {R : Type} {ctx : Ctx} {M : Sem} {sub : Nat → Nat → Attr → Atom}

theorem setTarget_eq {c : Code} {k : Nat} {b : Bool} {x t : Int}
    (h : c[k]? = some (if b then .ifnJump x else .ifJump x)) :
    setTarget c k t = c.set k (if b then .ifnJump t else .ifJump t) := by
  unfold setTarget
  cases b <;> simp at h <;> simp [h]

theorem setTarget_length (c : Code) (k : Nat) (t : Int) : (setTarget c k t).length = c.length := by
  unfold setTarget
  split <;> simp

theorem take_snoc {c d : Code} {i : Instr} (h : c.take (d.length + 1) = d ++ [i]) : c.take d.length = d ∧ c[d.length]? = some i := by
  constructor
  · have := congrArg (List.take d.length) h
    rw [List.take_take, Nat.min_eq_left (by omega)] at this
    rw [this]; simp
  · have : (c.take (d.length + 1))[d.length]? = some i := by rw [h]; simp
    rw [List.getElem?_take_of_lt (by omega)] at this
    exact this

theorem topPop_set {c : Code} {k : Nat} {i : Instr} (hi : i ≠ .pop) (h : isTopPop c = false) : isTopPop (c.set k i) = false := by
  simp only [isTopPop, List.getLast?_eq_getElem?, List.length_set, beq_eq_false_iff_ne] at h ⊢
  rw [List.getElem?_set]
  split
  · rename_i hk
    split
    · simpa using hi
    · simp
  · exact h

theorem step_br {C : Code} {pc : Nat} {t : Atom} {s : List Atom} {f : Frame} {bo : Rat} {k : Nat} {b : Bool}
    (hC : C[pc]? = some (if b then .ifnJump (k : Int) else .ifJump (k : Int))) :
    step M C ⟨pc, t :: s, f, bo⟩ = .next ⟨if decide (t = .null) = b then k else pc + 1, t :: s, f, bo⟩ := by
  cases b
  · rw [step_if (by simpa using hC)]
    by_cases h : t = .null <;> simp [h]
  · rw [step_ifn (by simpa using hC)]
    simp

/-- A conditional jump over the second operand. -/
theorem Good.branch {ev1 ev2 : World R → Atom × World R} {cl1 cl2 : Bool} {c c1 c2 : Comp R} (b : Bool)
    (h1 : Good ctx M sub ev1 cl1 c c1)
    (h2 : Good ctx M sub ev2 cl2 ((c1.emit (if b then .ifnJump (-1) else .ifJump (-1))).emit .pop) c2) :
    Good ctx M sub (fun w => if decide ((ev1 w).1 = .null) = b then ev1 w else ev2 (ev1 w).2) (cl1 && cl2) c
      { c2 with code := setTarget c2.code c1.code.length c2.code.length, lastElse := -1 } := by
  have hp : isTopPop ((c1.emit (if b then .ifnJump (-1) else .ifJump (-1))).emit .pop).code = true := by
    simp [Comp.emit, isTopPop]
  have hb : base ((c1.emit (if b then .ifnJump (-1) else .ifJump (-1))).emit .pop).code = c1.code.length + 1 := by
    simp only [base, hp, if_true]
    simp [Comp.emit]
  have hpre := h2.pre
  rw [hb] at hpre
  have hpre' : c2.code.take (c1.code.length + 1) = c1.code ++ [if b then .ifnJump (-1) else .ifJump (-1)] := by
    rw [hpre]
    simp only [Comp.emit]
    rw [List.take_left' (by simp)]
  obtain ⟨q1, q2⟩ := take_snoc hpre'
  have l1 := h1.len
  have l2 := h2.len
  rw [hb] at l2
  rw [setTarget_eq q2]
  generalize hd : c2.code.set c1.code.length (if b then .ifnJump (c2.code.length : Int) else .ifJump (c2.code.length : Int)) = d
  have ld : d.length = c2.code.length := by rw [← hd]; simp
  have qd : d.take c1.code.length = c1.code := by
    rw [← hd]
    rw [List.take_set, q1]
    rw [List.set_eq_of_length_le (Nat.le_refl _)]
  constructor
  · exact pre_trans h1.pre (by omega) qd
  · show base c.code < d.length
    omega
  · exact h1.trees.trans h2.trees
  · show isTopPop d = false
    rw [← hd]
    exact topPop_set (by cases b <;> simp) h2.last
  · rfl
  · intro C ts f w s s0 ha ht hr hs
    simp only at ha ⊢
    obtain ⟨f1, junk, r1, e1, j1⟩ := h1.runs C ts f w s s0 (agree_pre ha qd) (h2.trees.trans ht) hr hs
    have hC : C[c1.code.length]? = some (if b then .ifnJump (c2.code.length : Int) else .ifJump (c2.code.length : Int)) := by
      rw [ha _ (by omega) (by omega), ← hd]
      rw [List.getElem?_set_self (by omega)]
    have hst := step_br (M := M) (t := (ev1 w).1) (s := junk ++ s) (f := f1) (bo := (ev1 w).2.bonus) hC
    by_cases hbr : decide ((ev1 w).1 = .null) = b
    · rw [if_pos hbr] at hst ⊢
      refine ⟨f1, junk, r1.trans ?_, e1, fun h => j1 (by simp at h; exact h.1)⟩
      rw [ld]
      exact Reach.one hst
    · rw [if_neg hbr] at hst ⊢
      have a2 : Agree C c2.code (c1.code.length + 1) := by
        intro j hj hj'
        rw [ha j (by omega) (by omega), ← hd]
        rw [List.getElem?_set_ne (by omega)]
      obtain ⟨f2, junk2, r2, e2, j2⟩ := h2.runs C ts f1 (ev1 w).2 (junk ++ s) ((ev1 w).1 :: (junk ++ s)) (by rw [hb]; exact a2) ht e1
        (by simp only [Entry, hp, if_true]; exact ⟨_, rfl⟩)
      rw [hb] at r2
      refine ⟨f2, junk2 ++ junk, (r1.trans (Reach.one hst)).trans ?_, e2, fun h => ?_⟩
      · rw [ld, List.append_assoc]
        exact r2
      · simp at h
        rw [j1 h.1, j2 h.2]; rfl

/-- The jump is left out. -/
theorem Good.always {ev1 ev2 : World R → Atom × World R} {cl1 cl2 : Bool} {c c1 c2 : Comp R}
    (h1 : Good ctx M sub ev1 cl1 c c1) (h2 : Good ctx M sub ev2 cl2 (c1.emit .pop) c2) :
    Good ctx M sub (fun w => ev2 (ev1 w).2) (cl1 && cl2) c { c2 with lastElse := -1 } := by
  have hp : isTopPop (c1.emit .pop).code = true := by
    simp [Comp.emit, isTopPop]
  have hb : base (c1.emit .pop).code = c1.code.length := by
    simp only [base, hp, if_true]
    simp [Comp.emit]
  have hpre := h2.pre
  rw [hb] at hpre
  have q1 : c2.code.take c1.code.length = c1.code := by
    rw [hpre]
    simp only [Comp.emit]
    rw [List.take_left' rfl]
  have l1 := h1.len
  have l2 := h2.len
  rw [hb] at l2
  constructor
  · exact pre_trans h1.pre (by omega) q1
  · show base c.code < c2.code.length
    omega
  · exact h1.trees.trans h2.trees
  · exact h2.last
  · rfl
  · intro C ts f w s s0 ha ht hr hs
    simp only at ha ⊢
    obtain ⟨f1, junk, r1, e1, j1⟩ := h1.runs C ts f w s s0 (agree_pre ha q1) (h2.trees.trans ht) hr hs
    obtain ⟨f2, junk2, r2, e2, j2⟩ := h2.runs C ts f1 (ev1 w).2 (junk ++ s) ((ev1 w).1 :: (junk ++ s)) (by rw [hb]; exact agree_mono ha (by omega)) ht e1
        (by simp only [Entry, hp, if_true]; exact ⟨_, rfl⟩)
    rw [hb] at r2
    refine ⟨f2, junk2 ++ junk, r1.trans ?_, e2, fun h => ?_⟩
    · rw [List.append_assoc]
      exact r2
    · simp at h
      rw [j1 h.1, j2 h.2]; rfl

/-- A conditional jump to the alternative. -/
theorem Good.choice {ev1 ev2 ev3 : World R → Atom × World R} {cl1 cl2 cl3 : Bool} {c c1 c2 c3 : Comp R}
    (h1 : Good ctx M sub ev1 cl1 c c1) (h2 : Good ctx M sub ev2 cl2 ((c1.emit (.ifJump (-1))).emit .pop) c2)
    (h3 : Good ctx M sub ev3 cl3 (c2.emit (.jump (-1))) c3) :
    Good ctx M sub (fun w => if (ev1 w).1 = .null then ev2 (ev1 w).2 else ev3 (ev1 w).2) false c
      { c3 with code := setTarget (setTarget c3.code c2.code.length c3.code.length) c1.code.length ((c2.code.length : Int) + 1),
                lastElse := -1 } := by
  have hp : isTopPop ((c1.emit (.ifJump (-1))).emit .pop).code = true := by
    simp [Comp.emit, isTopPop]
  have hb : base ((c1.emit (.ifJump (-1))).emit .pop).code = c1.code.length + 1 := by
    simp only [base, hp, if_true]
    simp [Comp.emit]
  have hpre := h2.pre
  rw [hb] at hpre
  have hpre' : c2.code.take (c1.code.length + 1) = c1.code ++ [.ifJump (-1)] := by
    rw [hpre]
    simp only [Comp.emit]
    rw [List.take_left' (by simp)]
  obtain ⟨q1, q2⟩ := take_snoc hpre'
  have hp3 : isTopPop (c2.emit (.jump (-1))).code = false := by simp [Comp.emit, isTopPop]
  have hb3 := base_of_not hp3
  have hpre3 := h3.pre
  rw [hb3] at hpre3
  have hl3 : (c2.emit (.jump (-1))).code.length = c2.code.length + 1 := by simp [Comp.emit]
  have hpre3' : c3.code.take (c2.code.length + 1) = c2.code ++ [.jump (-1)] := by
    rw [hl3] at hpre3
    rw [hpre3]
    simp only [Comp.emit]
    rw [List.take_of_length_le (by simp)]
  obtain ⟨q3, q4⟩ := take_snoc hpre3'
  have l1 := h1.len
  have l2 := h2.len
  have l3 := h3.len
  rw [hb] at l2
  rw [hb3, hl3] at l3
  have q5 : c3.code[c1.code.length]? = some (.ifJump (-1)) := by
    rw [← List.getElem?_take_of_lt (i := c1.code.length) (j := c2.code.length) (by omega), q3]
    exact q2
  have e1 : setTarget c3.code c2.code.length c3.code.length = c3.code.set c2.code.length (.jump c3.code.length) := by
    unfold setTarget
    simp only [q4]
  rw [e1]
  have e2 : setTarget (c3.code.set c2.code.length (.jump c3.code.length)) c1.code.length ((c2.code.length : Int) + 1) =
      (c3.code.set c2.code.length (.jump c3.code.length)).set c1.code.length (.ifJump ((c2.code.length : Int) + 1)) := by
    unfold setTarget
    rw [List.getElem?_set_ne (by omega), q5]
  rw [e2]
  generalize hd : (c3.code.set c2.code.length (.jump c3.code.length)).set c1.code.length (.ifJump ((c2.code.length : Int) + 1)) = d
  have ld : d.length = c3.code.length := by rw [← hd]; simp
  have dsame : ∀ i, i ≠ c1.code.length → i ≠ c2.code.length → d[i]? = c3.code[i]? := by
    intro i h1 h2
    rw [← hd, List.getElem?_set_ne (fun h => h1 h.symm), List.getElem?_set_ne (fun h => h2 h.symm)]
  have d2 : ∀ i, i < c2.code.length → c3.code[i]? = c2.code[i]? := by
    intro i hi
    conv_rhs => rw [← q3]
    rw [List.getElem?_take_of_lt hi]
  have qd : d.take c1.code.length = c1.code := by
    rw [← hd]
    rw [List.take_set, List.take_set]
    rw [List.set_eq_of_length_le (by simp), List.set_eq_of_length_le (by simp; omega)]
    conv_rhs => rw [← q1, ← q3, List.take_take]
    rw [Nat.min_eq_left (by omega)]
  constructor
  · exact pre_trans h1.pre (by omega) qd
  · show base c.code < d.length
    omega
  · exact h1.trees.trans (h2.trees.trans h3.trees)
  · show isTopPop d = false
    rw [← hd]
    exact topPop_set (by simp) (topPop_set (by simp) h3.last)
  · rfl
  · intro C ts f w s s0 ha ht hr hs
    simp only at ha ⊢
    obtain ⟨f1, junk, r1, w1, j1⟩ := h1.runs C ts f w s s0 (agree_pre ha qd) ((h2.trees.trans h3.trees).trans ht) hr hs
    have hC : C[c1.code.length]? = some (.ifJump ((c2.code.length + 1 : Nat) : Int)) := by
      rw [ha _ (by omega) (by omega), ← hd]
      rw [List.getElem?_set_self (by simp; omega)]
      simp
    have hst := step_if (M := M) (t := (ev1 w).1) (s := junk ++ s) (f := f1) (b := (ev1 w).2.bonus) hC
    have hC2 : C[c2.code.length]? = some (.jump (c3.code.length : Int)) := by
      rw [ha _ (by omega) (by omega), ← hd]
      rw [List.getElem?_set_ne (by omega), List.getElem?_set_self (by omega)]
    by_cases hbr : (ev1 w).1 = .null
    · rw [if_pos hbr] at hst ⊢
      have a2 : Agree C c2.code (c1.code.length + 1) := by
        intro j hj hj'
        rw [ha j (by omega) (by omega), dsame j (by omega) (by omega), d2 j hj']
      obtain ⟨f2, junk2, r2, w2, j2⟩ := h2.runs C ts f1 (ev1 w).2 (junk ++ s) ((ev1 w).1 :: (junk ++ s)) (by rw [hb]; exact a2)
        (h3.trees.trans ht) w1 (by simp only [Entry, hp, if_true]; exact ⟨_, rfl⟩)
      rw [hb] at r2
      refine ⟨f2, junk2 ++ junk, ((r1.trans (Reach.one hst)).trans r2).trans ?_, w2, fun h => by cases h⟩
      rw [ld, List.append_assoc]
      exact Reach.one (step_jump hC2)
    · rw [if_neg hbr] at hst ⊢
      have a3 : Agree C c3.code (c2.code.length + 1) := by
        intro j hj hj'
        rw [ha j (by omega) (by omega), dsame j (by omega) (by omega)]
      obtain ⟨f2, junk2, r2, w2, j2⟩ := h3.runs C ts f1 (ev1 w).2 ((ev1 w).1 :: (junk ++ s)) ((ev1 w).1 :: (junk ++ s))
        (by rw [hb3, hl3]; exact a3) ht w1 ((entry_of_not hp3).2 rfl)
      rw [hb3, hl3] at r2
      refine ⟨f2, junk2 ++ (ev1 w).1 :: junk, (r1.trans (Reach.one hst)).trans ?_, w2, fun h => by cases h⟩
      rw [ld]
      simpa using r2

/-! ### When the jump is left out -/

theorem topTrue_emit (c : Code) (i : Instr) (hi : ∀ a, i ≠ .assign a) : isTopTrue (c ++ [i]) = putsTrue i := by
  unfold isTopTrue
  rw [List.reverse_append]
  cases i <;> simp_all [topTrueRev]

theorem topTrue_assign (c : Code) (a : Attr) : isTopTrue (c ++ [.assign a]) = isTopTrue c := by
  unfold isTopTrue
  rw [List.reverse_append]
  rfl

theorem topTrue_leaf {c : Comp R} {p q : Instr} (hp : ∀ a, p ≠ .assign a) (hq : ∀ a, q ≠ .assign a)
    (h : isTopTrue (c.leaf p q).code = true) : putsTrue p = true ∨ putsTrue q = true := by
  unfold Comp.leaf at h
  split at h
  · rw [topTrue_emit _ _ hq] at h; exact Or.inr h
  · simp only [Comp.emit] at h
    rw [topTrue_emit _ _ hp] at h; exact Or.inl h

theorem topTrueRev_set (p q : Code) (x y : Int) : topTrueRev (p ++ .ifJump x :: q) = topTrueRev (p ++ .ifJump y :: q) := by
  induction p with
  | nil => rfl
  | cons i p ih => cases i <;> simp [topTrueRev, ih]

theorem set_split {c : Code} {k : Nat} {x : Instr} (h : c[k]? = some x) : ∃ p q, c = p ++ x :: q ∧ ∀ y, c.set k y = p ++ y :: q := by
  have hk : k < c.length := by
    by_contra hh
    rw [List.getElem?_eq_none (by omega)] at h
    cases h
  have hx : c[k] = x := by rw [List.getElem?_eq_getElem hk] at h; exact Option.some.inj h
  refine ⟨c.take k, c.drop (k + 1), ?_, fun y => ?_⟩
  · rw [← hx, List.getElem_cons_drop hk, List.take_append_drop]
  · rw [List.set_eq_take_append_cons_drop, if_pos hk]

theorem topTrue_set {c : Code} {k : Nat} {x : Int} (h : c[k]? = some (.ifJump x)) (y : Int) :
    isTopTrue (setTarget c k y) = isTopTrue c ∧ ∀ n, isJumpTo (setTarget c k y) n = isJumpTo c n := by
  have : setTarget c k y = c.set k (.ifJump y) := by unfold setTarget; simp only [h]
  rw [this]
  obtain ⟨p, q, h1, h2⟩ := set_split h
  rw [h2, h1]
  constructor
  · unfold isTopTrue
    simp only [List.reverse_append, List.reverse_cons, List.append_assoc, List.singleton_append]
    exact topTrueRev_set _ _ _ _
  · intro n
    simp [isJumpTo]

theorem isJumpTo_set {c : Code} {k n : Nat} {i : Instr} (hk : k < c.length) (hi : i = .ifnJump n ∨ i = .jump n) :
    isJumpTo (c.set k i) n = true := by
  unfold isJumpTo
  rw [List.any_eq_true]
  refine ⟨i, List.mem_iff_getElem?.2 ⟨k, List.getElem?_set_self hk⟩, ?_⟩
  rcases hi with rfl | rfl <;> simp


/-- What is proved of every condition. -/
structure Fine (ctx : Ctx) (M : Sem) (sub : Nat → Nat → Attr → Atom) (e : Expr R) (c c' : Comp R) : Prop where
  good : Good ctx M sub (eval ctx M sub e) e.noElse c c'
  safe : e.safe = true → isTopTrue c'.code = true → isJumpTo c'.code c'.code.length = false → ∀ w, (eval ctx M sub e w).1 ≠ .null
  plain : e.plain = true → isTopTrue c'.code = true → ∀ w, (eval ctx M sub e w).1 ≠ .null

theorem Fine.simple {e : Expr R} {c c' : Comp R} (h : Good ctx M sub (eval ctx M sub e) e.noElse c c')
    (h2 : isTopTrue c'.code = true → ∀ w, (eval ctx M sub e w).1 ≠ .null) : Fine ctx M sub e c c' :=
  ⟨h, fun _ h _ => h2 h, fun _ => h2⟩

theorem Good.congr {ev ev' : World R → Atom × World R} {cl : Bool} {c c' : Comp R} (h : Good ctx M sub ev cl c c') (he : ev = ev') :
    Good ctx M sub ev' cl c c' := he ▸ h

theorem topTrue_last {c : Comp R} {i : Instr} (hi : ∀ a, i ≠ .assign a) (hp : putsTrue i = false) : isTopTrue (c.emit i).code = true → False := by
  intro h
  simp only [Comp.emit] at h
  rw [topTrue_emit _ _ hi, hp] at h
  cases h

/-- Instructions of two operands. -/
theorem effect_op (o : Op2) (ts : List R) (f : Frame) (w : World R) (v q : Atom) (s : List Atom) (hr : Rel ctx sub ts f w) :
    ∃ f', effect M (opInstr o.biOp) (q :: v :: s) f w.bonus =
      some ((o.value M v q).1 :: s, f', w.bonus + (o.value M v q).2) ∧
      Rel ctx sub ts f' { w with bonus := w.bonus + (o.value M v q).2 } := by
  refine ⟨f, ?_, ⟨hr.attr, hr.score, hr.tree, hr.printed, hr.subs⟩⟩
  cases o
  · simp only [Op2.biOp, opInstr, effect, Op2.value, fromBool, Rat.add_zero, decide_eq_true_eq]
    simp only [eq_comm]
  · simp only [Op2.biOp, opInstr, effect, Op2.value, fromBool, Rat.add_zero, decide_eq_true_eq]
    by_cases h : v = q
    · simp [h]
    · simp [h, Ne.symm h]
  · simp only [Op2.biOp, opInstr, effect, Op2.value, Rat.add_zero]
    congr 2
    unfold unifyTop unify
    by_cases h : v = q
    · simp [h]
    · have h' : q ≠ v := Ne.symm h
      by_cases h1 : v = .any
      · simp [h, h', h1]
        exact fun h => h.symm
      · simp [h, h', h1]
  · simp only [Op2.biOp, opInstr, effect, Op2.value, Rat.add_zero]
    rw [hooking_eq, hooks_comm]
  · rfl
  · simp only [Op2.biOp, opInstr, effect, Op2.value, Rat.add_zero]
    rw [add_eq, plus_comm]

/-- Instructions with a constant. -/
theorem effect_opConst (o : Op2) (ts : List R) (f : Frame) (w : World R) (v q : Atom) (s : List Atom) (hr : Rel ctx sub ts f w) :
    ∃ f', effect M (opConst q o.biOp) (v :: s) f w.bonus =
      some ((o.value M v q).1 :: s, f', w.bonus + (o.value M v q).2) ∧
      Rel ctx sub ts f' { w with bonus := w.bonus + (o.value M v q).2 } := by
  refine ⟨f, ?_, ⟨hr.attr, hr.score, hr.tree, hr.printed, hr.subs⟩⟩
  cases o
  · simp only [Op2.biOp, opConst, effect, Op2.value, fromBool, Rat.add_zero, decide_eq_true_eq]
  · simp only [Op2.biOp, opConst, effect, Op2.value, fromBool, Rat.add_zero, decide_eq_true_eq]
    by_cases h : v = q <;> simp [h]
  · simp only [Op2.biOp, opConst, effect, Op2.value, Rat.add_zero]
    congr 2
    unfold unifyTop unify
    by_cases h : v = q
    · simp [h]
    · have h' : q ≠ v := Ne.symm h
      by_cases h1 : v = .any
      · simp [h, h', h1]
        exact fun h => h.symm
      · simp [h, h', h1]
  · simp only [Op2.biOp, opConst, effect, Op2.value, Rat.add_zero]
    rw [hooking_eq]
  · rfl
  · simp only [Op2.biOp, opConst, effect, Op2.value, Rat.add_zero]
    rw [add_eq]

theorem isConst_node (e : Expr R) : isConst e.node = e.const := by cases e <;> rfl

theorem isBinarg_node (e : Expr R) : isBinarg e.node = false := by
  cases e <;> try rfl
  rename_i o l r
  cases o <;> rfl

/-- Constants on the right. -/
theorem eval_const {e : Expr R} (h : e.const = true) (w : World R) : eval ctx M sub e w = (toConst ctx e.node, w) := by
  cases e <;> simp [Expr.const] at h <;> rfl

theorem noElse_const {e : Expr R} (h : e.const = true) : e.noElse = true := by
  cases e <;> simp [Expr.const] at h <;> rfl

theorem comp_op (o : Op2) (l r : Node R) (hl : isBinarg l = false) (c : Comp R) : comp ctx (.bi o.biOp l r) c =
    (comp ctx l c).bind (fun c =>
      if isConst r then some (c.emit (opConst (toConst ctx r) o.biOp))
      else (comp ctx r c).map (·.emit (opInstr o.biOp))) := by
  cases o <;> simp only [Op2.biOp] <;> rw [comp] <;> simp [hl]

theorem compiled (e : Expr R) : e.fine = true → ∀ c c' : Comp R, comp ctx e.node c = some c' → Fine ctx M sub e c c' := by
  induction e with
  | number n =>
    intro hf c c' h
    simp only [Expr.fine, Bool.and_eq_true, bne_iff_ne] at hf
    simp only [Expr.node, comp, Option.some.injEq] at h
    subst h
    have hn : numeral n = .int n := by simp [numeral, hf.1, hf.2]
    refine .simple ?_ ?_
    · exact good_leaf c _ _ rfl (by simp) rfl (by simp) (fun _ => numeral n) (by intros; rw [hn]; rfl) (by intros; rw [hn]; rfl)
    · intro _ w
      simp [eval, hn]
  | name s =>
    intro _ c c' h
    simp only [Expr.node, comp, Option.some.injEq] at h
    subst h
    refine .simple ?_ ?_
    · exact good_leaf c _ _ rfl (by simp) rfl (by simp) (fun _ => ctx.fromString s) (by intros; rfl) (by intros; rfl)
    · intro h w
      rcases topTrue_leaf (by simp) (by simp) h with h | h <;> simpa [putsTrue, isTrue, eval] using h
  | attr a =>
    intro _ c c' h
    simp only [Expr.node, comp, Option.some.injEq] at h
    subst h
    refine .simple ?_ ?_
    · exact good_leaf c _ _ rfl (by simp) rfl (by simp) (fun w => w.attr a) (by intro ts f w s hr; simp [effect, hr.attr])
        (by intro ts f w x s hr; simp [effect, hr.attr])
    · intro h w
      rcases topTrue_leaf (by simp) (by simp) h with h | h <;> simp [putsTrue] at h
  | sub s n a =>
    intro _ c c' h
    simp only [Expr.node, comp, Option.map_eq_some_iff] at h
    obtain ⟨ix, hix, rfl⟩ := h
    refine .simple ?_ ?_
    · exact good_leaf c _ _ rfl (by simp) rfl (by simp) (fun w => sub s n a)
        (by intro ts f w st hr; simp [effect, hr.subs s n ix hix]) (by intro ts f w x st hr; simp [effect, hr.subs s n ix hix])
    · intro h w
      rcases topTrue_leaf (by simp) (by simp) h with h | h <;> simp [putsTrue] at h
  | always e ih =>
    intro hf c c' h
    simp only [Expr.node, comp, Option.map_eq_some_iff] at h
    obtain ⟨c1, h1, rfl⟩ := h
    refine .simple ?_ ?_
    · exact (ih hf c c1 h1).good.emit1 _ rfl (by simp) (fun _ w => (.any, w)) (by intro ts f w v s hr; exact ⟨f, rfl, hr⟩)
    · intro _ w
      simp [eval]
  | print e ih =>
    intro hf c c' h
    simp only [Expr.node, comp, Option.map_eq_some_iff] at h
    obtain ⟨c1, h1, rfl⟩ := h
    refine .simple ?_ ?_
    · exact (ih hf c c1 h1).good.emit1 _ rfl (by simp) (fun v w => (.any, { w with printed := w.printed ++ [v] })) (by
        intro ts f w v s hr
        exact ⟨_, rfl, ⟨hr.attr, hr.score, hr.tree, by simp [hr.printed], hr.subs⟩⟩)
    · intro _ w
      simp [eval]
  | tree r =>
    intro hf c c' h
    simp only [Expr.node, comp, Option.some.injEq] at h
    subst h
    refine .simple ?_ ?_
    · exact good_emit0 c _ [r] rfl (by simp) (fun w => (.any, { w with tree := r })) (by
        intro ts f w s ht hr
        refine ⟨_, rfl, ⟨hr.attr, hr.score, ?_, hr.printed, hr.subs⟩⟩
        obtain ⟨u, rfl⟩ := ht
        simp)
    · intro _ w
      simp [eval]
  | score s =>
    intro hf c c' h
    simp only [Expr.node, comp, Option.some.injEq] at h
    subst h
    refine .simple ?_ ?_
    · have := good_emit0 (ctx := ctx) (M := M) (sub := sub) c (.setScore (s * ctx.factor)) [] rfl (by simp)
        (fun w => (.any, { w with score := s * ctx.factor })) (by
        intro ts f w st ht hr
        exact ⟨_, rfl, ⟨hr.attr, rfl, hr.tree, hr.printed, hr.subs⟩⟩)
      rw [List.append_nil] at this
      exact this
    · intro _ w
      simp [eval]
  | assign a e ih =>
    intro hf c c' h
    simp only [Expr.node, comp, leftAttr, Option.bind_some] at h
    rw [isConst_node] at h
    split at h
    · rename_i hc
      simp only [Option.some.injEq] at h
      subst h
      refine .simple ?_ (fun h => (topTrue_last (by simp) rfl h).elim)
      have := good_emit0 (ctx := ctx) (M := M) (sub := sub) c (.assignConst a (toConst ctx e.node)) [] rfl (by simp)
        (fun w => (toConst ctx e.node, { w with attr := fun b => if b = a then toConst ctx e.node else w.attr b })) (by
        intro ts f w st ht hr
        exact ⟨_, rfl, hr.assign a _⟩)
      simp only [Expr.noElse, noElse_const hc]
      refine Good.congr (by simpa [Comp.emit] using this) ?_
      funext w
      simp only [eval, eval_const hc]
    · rename_i hc
      simp only [Option.map_eq_some_iff] at h
      obtain ⟨c1, h1, rfl⟩ := h
      simp only [Expr.fine, Bool.or_eq_true] at hf
      have hf1 := hf.resolve_left hc
      have hF := ih hf1 c c1 h1
      have hpl : e.plain = true → isTopTrue (c1.emit (.assign a)).code = true → ∀ w, (eval ctx M sub (.assign a e) w).1 ≠ .null := by
        intro hp ht w
        simp only [Comp.emit, topTrue_assign] at ht
        exact hF.plain hp ht w
      refine ⟨?_, fun hs ht _ => hpl hs ht, hpl⟩
      exact hF.good.emit1 _ rfl (by simp) (fun v w => (v, { w with attr := fun b => if b = a then v else w.attr b })) (by
        intro ts f w v s hr
        exact ⟨_, rfl, hr.assign a v⟩)
  | uassign a e ih =>
    intro hf c c' h
    simp only [Expr.node, comp, leftAttr, Option.bind_some] at h
    rw [isConst_node] at h
    split at h
    · rename_i hc
      simp only [Option.some.injEq] at h
      subst h
      refine .simple ?_ (fun h => (topTrue_last (by simp) rfl h).elim)
      have := good_emit0 (ctx := ctx) (M := M) (sub := sub) c (.uassignConst a (toConst ctx e.node)) [] rfl (by simp)
        (fun w => (unify (w.attr a) (toConst ctx e.node),
          if w.attr a = .any then { w with attr := fun b => if b = a then toConst ctx e.node else w.attr b } else w)) (by
        intro ts f w st ht hr
        obtain ⟨u1, u2⟩ := hr.unify a (toConst ctx e.node)
        refine ⟨_, ?_, u2⟩
        simp only [effect, u1]
        split <;> rfl)
      simp only [Expr.noElse, noElse_const hc]
      refine Good.congr (by simpa [Comp.emit] using this) ?_
      funext w
      simp only [eval, eval_const hc]
    · rename_i hc
      simp only [Option.map_eq_some_iff] at h
      obtain ⟨c1, h1, rfl⟩ := h
      simp only [Expr.fine, Bool.or_eq_true] at hf
      have hf1 := hf.resolve_left hc
      have hF := ih hf1 c c1 h1
      refine .simple ?_ (fun h => (topTrue_last (by simp) rfl h).elim)
      exact hF.good.emit1 _ rfl (by simp) (fun v w => (unify (w.attr a) v,
          if w.attr a = .any then { w with attr := fun b => if b = a then v else w.attr b } else w)) (by
        intro ts f w v s hr
        obtain ⟨u1, u2⟩ := hr.unify a v
        refine ⟨_, ?_, u2⟩
        simp only [effect, u1]
        split <;> rfl)
  | and l r ihl ihr =>
    intro hf c c' h
    simp only [Expr.fine, Bool.and_eq_true] at hf
    simp only [Expr.node, comp, Option.bind_eq_some_iff, Option.map_eq_some_iff] at h
    obtain ⟨c1, h1, c2, h2, rfl⟩ := h
    have F1 := ihl hf.1.1 c c1 h1
    have F2 := ihr hf.1.2 _ c2 h2
    unfold beforeAnd at h2 F2 ⊢
    split at h2
    · rename_i hd
      rw [if_pos hd] at F2 ⊢
      simp only [Bool.and_eq_true, Bool.not_eq_true'] at hd
      have hl := F1.safe hf.2 hd.1 hd.2
      simp only [afterAnd]
      have he : ∀ w, eval ctx M sub (.and l r) w = eval ctx M sub r (eval ctx M sub l w).2 := by
        intro w
        simp only [eval, if_neg (hl w)]
      refine ⟨(F1.good.always F2.good).congr (funext fun w => (he w).symm), ?_, by intro h; cases h⟩
      intro hs ht hj w
      rw [he]
      exact F2.safe hs ht hj _
    · rename_i hd
      rw [if_neg hd] at F2 ⊢
      simp only [afterAnd]
      have G := F1.good.branch true F2.good
      refine ⟨?_, ?_, by intro h; cases h⟩
      · refine G.congr ?_
        funext w
        simp [eval]
      · intro hs ht hj w
        exfalso
        have l2 := F2.good.len
        have hk : c1.code.length < c2.code.length := by
          have hb : base ((c1.emit (.ifnJump (-1))).emit .pop).code = c1.code.length + 1 := by
            simp [base, isTopPop, Comp.emit]
          simp only [hb] at l2
          omega
        have hq : c2.code[c1.code.length]? = some (.ifnJump (-1)) := by
          have hb : base ((c1.emit (.ifnJump (-1))).emit .pop).code = c1.code.length + 1 := by
            simp [base, isTopPop, Comp.emit]
          have hp := F2.good.pre
          simp only [hb] at hp
          rw [take_get hp (by omega)]
          simp [Comp.emit]
        simp only [setTarget, hq] at hj
        rw [List.length_set, isJumpTo_set hk (Or.inl rfl)] at hj
        cases hj
  | or l r ihl ihr =>
    intro hf c c' h
    simp only [Expr.fine, Bool.and_eq_true] at hf
    simp only [Expr.node, comp, Option.bind_eq_some_iff, Option.map_eq_some_iff] at h
    obtain ⟨c1, h1, c2, h2, rfl⟩ := h
    have F1 := ihl hf.1 c c1 h1
    have F2 := ihr hf.2 _ c2 h2
    simp only [afterAnd]
    have G := F1.good.branch false F2.good
    refine ⟨?_, ?_, by intro h; cases h⟩
    · refine G.congr ?_
      funext w
      simp only [eval]
      by_cases h : (eval ctx M sub l w).1 = .null <;> simp [h]
    · intro hs ht hj w
      have hq : c2.code[c1.code.length]? = some (.ifJump (-1)) := by
        have hb : base ((c1.emit (.ifJump (-1))).emit .pop).code = c1.code.length + 1 := by
          simp [base, isTopPop, Comp.emit]
        have hp := F2.good.pre
        simp only [hb] at hp
        rw [take_get hp (by omega)]
        simp [Comp.emit]
      obtain ⟨t1, t2⟩ := topTrue_set hq c2.code.length
      simp only [t1] at ht
      simp only [t2] at hj
      have hlen : (setTarget c2.code c1.code.length c2.code.length).length = c2.code.length := by
        simp only [setTarget, hq, List.length_set]
      rw [hlen] at hj
      simp only [eval]
      split
      · exact F2.safe hs ht hj _
      · assumption
  | impl l r ihl ihr =>
    intro hf c c' h
    simp only [Expr.fine, Bool.and_eq_true] at hf
    simp only [Expr.node, comp, Option.bind_eq_some_iff, Option.map_eq_some_iff] at h
    obtain ⟨c1, h1, c2, h2, rfl⟩ := h
    have F1 := ihl hf.1 c c1 h1
    have F2 := ihr hf.2 _ c2 h2
    have hle := F2.good.lastElse
    have G1 := F1.good.emit1 .not rfl (by simp) (fun v w => (fromBool (!isTrue v), w)) (by
      intro ts f w v s hr
      exact ⟨f, rfl, hr⟩)
    have hl1 : (c1.emit .not).code.length = c1.code.length + 1 := by simp [Comp.emit]
    have G := G1.branch false F2.good
    simp only [afterImplication, hle]
    rw [if_neg (by omega)]
    rw [hl1] at G
    refine ⟨?_, ?_, by intro h; cases h⟩
    · refine G.congr ?_
      funext w
      simp only [eval]
      by_cases h : (eval ctx M sub l w).1 = .null <;> simp [h, isTrue, fromBool]
    · intro hs ht hj w
      have hq : c2.code[c1.code.length + 1]? = some (.ifJump (-1)) := by
        have hb : base (((c1.emit .not).emit (.ifJump (-1))).emit .pop).code = c1.code.length + 2 := by
          simp [base, isTopPop, Comp.emit]
        have hp := F2.good.pre
        simp only [hb] at hp
        rw [take_get hp (by omega)]
        simp [Comp.emit]
      obtain ⟨t1, t2⟩ := topTrue_set hq c2.code.length
      simp only [t1] at ht
      simp only [t2] at hj
      have hlen : (setTarget c2.code (c1.code.length + 1) c2.code.length).length = c2.code.length := by
        simp only [setTarget, hq, List.length_set]
      rw [hlen] at hj
      simp only [eval]
      split
      · simp
      · exact F2.safe hs ht hj _
  | ifElse l r e ihl ihr ihe =>
    intro hf c c' h
    simp only [Expr.fine, Bool.and_eq_true] at hf
    simp only [Expr.node, comp, Option.bind_eq_some_iff, Option.map_eq_some_iff] at h
    obtain ⟨c1, h1, _, ⟨c2, h2, c3, h3, rfl⟩, rfl⟩ := h
    have F1 := ihl hf.1.1 c c1 h1
    have F2 := ihr hf.1.2 _ c2 h2
    have F3 := ihe hf.2 _ c3 h3
    have G1 := F1.good.emit1 .not rfl (by simp) (fun v w => (fromBool (!isTrue v), w)) (by
      intro ts f w v s hr
      exact ⟨f, rfl, hr⟩)
    have hl1 : (c1.emit .not).code.length = c1.code.length + 1 := by simp [Comp.emit]
    have G := G1.choice F2.good F3.good
    simp only [afterImplication]
    rw [if_pos (by omega)]
    rw [hl1] at G
    refine ⟨?_, ?_, by intro h; cases h⟩
    · refine G.congr ?_
      funext w
      simp only [eval]
      by_cases h : (eval ctx M sub l w).1 = .null <;> simp [h, isTrue, fromBool]
    · intro hs ht hj w
      exfalso
      have hb2 : base (((c1.emit .not).emit (.ifJump (-1))).emit .pop).code = c1.code.length + 2 := by
        simp [base, isTopPop, Comp.emit]
      have hb3 : base (c2.emit (.jump (-1))).code = c2.code.length + 1 := by
        simp [base, isTopPop, Comp.emit]
      have l2 := F2.good.len
      have l3 := F3.good.len
      have p2 := F2.good.pre
      have p3 := F3.good.pre
      rw [hb2] at l2 p2
      rw [hb3] at l3 p3
      have q3 : c3.code[c2.code.length]? = some (.jump (-1)) := by
        rw [take_get p3 (by omega)]
        simp [Comp.emit]
      have q2 : c3.code[c1.code.length + 1]? = some (.ifJump (-1)) := by
        rw [take_get p3 (by omega)]
        simp only [Comp.emit]
        rw [List.getElem?_append_left (by omega)]
        rw [take_get p2 (by omega)]
        simp [Comp.emit]
      have e1 : setTarget c3.code c2.code.length c3.code.length = c3.code.set c2.code.length (.jump c3.code.length) := by
        simp only [setTarget, q3]
      have q4 : (setTarget c3.code c2.code.length c3.code.length)[c1.code.length + 1]? = some (.ifJump (-1)) := by
        rw [e1, List.getElem?_set_ne (by omega), q2]
      simp only at hj
      rw [(topTrue_set q4 _).2] at hj
      have hlen : (setTarget (setTarget c3.code c2.code.length c3.code.length) (c1.code.length + 1) ((c2.code.length : Int) + 1)).length =
          c3.code.length := by
        rw [setTarget_length, setTarget_length]
      rw [hlen, e1, isJumpTo_set (by omega) (Or.inr rfl)] at hj
      cases hj
  | op o l r ihl ihr =>
    intro hf c c' h
    simp only [Expr.fine, Bool.and_eq_true, Bool.or_eq_true] at hf
    simp only [Expr.node] at h
    rw [comp_op _ _ _ (isBinarg_node l)] at h
    simp only [Option.bind_eq_some_iff] at h
    obtain ⟨c1, h1, h2⟩ := h
    have F1 := ihl hf.1 c c1 h1
    rw [isConst_node] at h2
    split at h2
    · rename_i hc
      simp only [Option.some.injEq] at h2
      subst h2
      refine .simple ?_ (fun h => (topTrue_last (by cases o <;> simp [opConst, Op2.biOp]) (by cases o <;> rfl) h).elim)
      simp only [Expr.noElse, noElse_const hc, Bool.and_true]
      refine (F1.good.emit1 _ (by cases o <;> rfl) (by cases o <;> simp [opConst, Op2.biOp]) (fun v w =>
        ((o.value M v (toConst ctx r.node)).1, { w with bonus := w.bonus + (o.value M v (toConst ctx r.node)).2 })) (by
          intro ts f w v s hr
          exact effect_opConst o ts f w v _ s hr)).congr ?_
      funext w
      simp only [eval, eval_const hc]
    · rename_i hc
      have hr := hf.2.resolve_left hc
      simp only [Option.map_eq_some_iff] at h2
      obtain ⟨c2, h2, rfl⟩ := h2
      have F2 := ihr hr.1 c1 c2 h2
      refine .simple ?_ (fun h => (topTrue_last (by cases o <;> simp [opInstr, Op2.biOp]) (by cases o <;> rfl) h).elim)
      simp only [Expr.noElse, hr.2, Bool.and_true]
      have G2 := F2.good
      rw [hr.2] at G2
      exact F1.good.emit2 G2 _ (by cases o <;> rfl) (by cases o <;> simp [opInstr, Op2.biOp]) (fun v q w =>
        ((o.value M v q).1, { w with bonus := w.bonus + (o.value M v q).2 })) (by
          intro ts f w v q s hr
          exact effect_op o ts f w v q s hr)
  | tri l m r ihl ihm ihr =>
    intro hf c c' h
    simp only [Expr.fine, Bool.and_eq_true, Bool.not_eq_true'] at hf
    obtain ⟨⟨⟨⟨⟨f1, f2⟩, f3⟩, f4⟩, f5⟩, f6⟩ := hf
    simp only [Expr.node, comp, isBinarg, and_self, if_true, Option.bind_eq_some_iff, Option.map_eq_some_iff] at h
    obtain ⟨_, ⟨c1, h1, h2⟩, c3, h3, rfl⟩ := h
    rw [isConst_node, f4, if_neg (by simp)] at h2
    simp only [Option.map_eq_some_iff] at h2
    obtain ⟨c2, h2, rfl⟩ := h2
    have F1 := ihl f1 c c1 h1
    have F2 := ihm f2 c1 c2 h2
    have hc2 : ({ c2 with lastElse := -1 } : Comp R) = c2 := by
      have := F2.good.lastElse
      cases c2
      simp_all
    rw [hc2] at h3
    have F3 := ihr f5 c2 c3 h3
    refine .simple ?_ (fun h => (topTrue_last (by simp) rfl h).elim)
    simp only [Expr.noElse, f3, f6, Bool.and_true]
    have G2 := F2.good
    have G3 := F3.good
    rw [f3] at G2
    rw [f6] at G3
    exact F1.good.emit3 G2 G3 .triSem rfl (by simp) (fun v q x w =>
      ((M.triIntersect v q x).1, { w with bonus := w.bonus + (M.triIntersect v q x).2 })) (by
        intro ts f w v q x s hr
        exact ⟨f, rfl, ⟨hr.attr, hr.score, hr.tree, hr.printed, hr.subs⟩⟩)

end Verif.Gobio
