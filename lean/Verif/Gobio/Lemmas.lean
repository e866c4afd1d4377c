import Verif.Gobio.Spec
import Mathlib.Tactic.Ring
import Mathlib.Tactic.Positivity
import Mathlib.Algebra.Order.Ring.Int

/-!
Helper lemmas for Props.lean.
-/
set_option linter.unusedSimpArgs false
set_option linter.unusedVariables false
namespace Verif.Gobio
open Verif
variable {R : Type}

/-! ### Attributes -/

theorem getAttr_eq (m : List Atom) (i : Nat) : getAttr m i = m[i]?.getD .null := by
  unfold getAttr
  split
  · rename_i h
    rw [List.getElem?_eq_none h]; rfl
  · rfl

theorem getAttr_set (m : List Atom) (i j : Nat) (v : Atom) : getAttr (setAttr m i v) j = if j = i then v else getAttr m j := by
  simp only [getAttr_eq]
  unfold setAttr
  split
  · rename_i h
    split
    · rename_i hv
      split
      · rename_i hj
        subst hj
        rw [List.getElem?_eq_none h, hv]; rfl
      · rfl
    · rw [List.getElem?_set]
      split
      · rename_i hij
        subst hij
        rw [if_pos (by simp; omega)]
        simp
      · rename_i hij
        rw [if_neg (fun h => hij h.symm)]
        rw [List.getElem?_append]
        split
        · rfl
        · rename_i hlt
          rw [List.getElem?_eq_none (by omega : m.length ≤ j)]
          rw [List.getElem?_replicate]
          split <;> rfl
  · rename_i h
    split
    · rename_i hv
      split
      · rename_i hj
        subst hj
        exact hv
      · rfl
    · rw [List.getElem?_set]
      split
      · rename_i hij
        subst hij
        rw [if_pos (by omega)]
        simp
      · rename_i hij
        rw [if_neg (fun h => hij h.symm)]

theorem Frame.get_set (f : Frame) (a b : Attr) (v : Atom) : (f.set a v).get b = if b = a then v else f.get b := by
  obtain ⟨ae, ai⟩ := a
  obtain ⟨be, bi⟩ := b
  cases ae <;> cases be <;> simp [Frame.set, Frame.get, getAttr_set]

theorem Frame.set_sub (f : Frame) (a b : Attr) (v : Atom) (ix : Nat) : (f.set a v).sub b ix = f.sub b ix := by
  obtain ⟨ae, ai⟩ := a
  cases ae <;> rfl

theorem Frame.set_score (f : Frame) (a : Attr) (v : Atom) : (f.set a v).score = f.score ∧ (f.set a v).tree = f.tree ∧
    (f.set a v).printed = f.printed := by
  unfold Frame.set
  split <;> simp

/-! ### Hooks -/

theorem checkHooks_eq (q r : Int) : ∀ n k v, checkHooks q r k n v =
    if ∃ j < n, bit q (k + j) = true ∧ bit r (k + j) = true then none
    else some (v + 2 ^ k * (q / 2 ^ k % 2 ^ n + r / 2 ^ k % 2 ^ n)) := by
  intro n
  induction n with
  | zero =>
    intro k v
    rw [checkHooks, if_neg (by rintro ⟨j, h1, _⟩; omega)]
    simp [Int.emod_one]
  | succ n ih =>
    intro k v
    rw [checkHooks]
    have hrec : ∀ x : Int, x / 2 ^ k % 2 ^ (n + 1) = x / 2 ^ k % 2 + 2 * (x / 2 ^ (k + 1) % 2 ^ n) := by
      intro x
      have h1 : x / 2 ^ (k + 1) = x / 2 ^ k / 2 := by
        rw [pow_succ, Int.ediv_ediv_of_nonneg (by positivity)]
      rw [h1, pow_succ]
      generalize x / 2 ^ k = y
      have hpos : (0 : Int) < 2 ^ n := by positivity
      generalize hN : (2 : Int) ^ n = N at hpos ⊢
      have e1 : y % (N * 2) = y - N * 2 * (y / (N * 2)) := Int.emod_def _ _
      have e2 : y / 2 % N = y / 2 - N * (y / 2 / N) := Int.emod_def _ _
      have e3 : y / 2 / N = y / (N * 2) := by
        rw [Int.mul_comm N 2, Int.ediv_ediv_of_nonneg (by omega)]
      rw [e1, e2, e3]
      have e4 : y % 2 = y - 2 * (y / 2) := Int.emod_def _ _
      rw [e4]
      ring
    have hb : ∀ x : Int, bit x k = true ∧ x / 2 ^ k % 2 = 1 ∨ bit x k = false ∧ x / 2 ^ k % 2 = 0 := by
      intro x
      unfold bit
      by_cases h : x / 2 ^ k % 2 = 1
      · exact Or.inl ⟨by simpa using h, h⟩
      · exact Or.inr ⟨by simpa using h, by omega⟩
    unfold checkHook
    rcases hb q with ⟨hq, hq'⟩ | ⟨hq, hq'⟩ <;> rcases hb r with ⟨hr, hr'⟩ | ⟨hr, hr'⟩
    · rw [if_pos (by simp [hq, hr]), if_pos ⟨0, by omega, hq, hr⟩]; rfl
    all_goals
      rw [if_neg (by simp [hq, hr])]
      have hex : (∃ j < n, bit q (k + 1 + j) = true ∧ bit r (k + 1 + j) = true) ↔
          ∃ j < n + 1, bit q (k + j) = true ∧ bit r (k + j) = true := by
        constructor
        · rintro ⟨j, h1, h3⟩
          rw [Nat.add_assoc] at h3
          exact ⟨1 + j, by omega, h3⟩
        · rintro ⟨j, h1, h3⟩
          cases j with
          | zero =>
            rw [Nat.add_zero, hq, hr] at h3
            simp at h3
          | succ j =>
            rw [Nat.add_comm j 1, ← Nat.add_assoc] at h3
            exact ⟨j, by omega, h3⟩
    · rw [if_pos (by simp [hq, hr])]
      simp only [Option.bind_some]
      rw [ih, hrec q, hrec r, hq', hr']
      simp only [hex]
      split
      · rfl
      · congr 1; rw [pow_succ]; ring
    · rw [if_pos (by simp [hq, hr])]
      simp only [Option.bind_some]
      rw [ih, hrec q, hrec r, hq', hr']
      simp only [hex]
      split
      · rfl
      · congr 1; rw [pow_succ]; ring
    · rw [if_neg (by simp [hq, hr])]
      simp only [Option.bind_some]
      rw [ih, hrec q, hrec r, hq', hr']
      simp only [hex]
      split
      · rfl
      · congr 1; rw [pow_succ]; ring

theorem hooking_eq (a b : Atom) : hooking a b = hooks a b := by
  unfold hooking hooks
  split
  · rename_i i j
    rw [checkHooks_eq]
    simp only [Nat.zero_add]
    split
    · rename_i hh
      split at hh
      · rename_i h2
        rw [if_pos h2]
      · cases hh
    · rename_i v hh
      split at hh
      · cases hh
      · rename_i h2
        rw [if_neg h2]
        simp at hh
        rw [← hh]
  · rename_i h
    split
    · rename_i i j
      exact absurd rfl (h i j rfl)
    · rfl

theorem hooks_comm (a b : Atom) : hooks a b = hooks b a := by
  unfold hooks
  cases a <;> cases b <;> try rfl
  rename_i i j
  simp only
  have : (∃ k < 8, bit i k = true ∧ bit j k = true) ↔ ∃ k < 8, bit j k = true ∧ bit i k = true := by
    constructor <;> rintro ⟨k, h1, h2, h3⟩ <;> exact ⟨k, h1, h3, h2⟩
  simp only [this]
  split
  · rfl
  · rw [Int.add_comm]

theorem add_eq (a b : Atom) : add a b = plus a b := by
  unfold add plus
  cases a <;> cases b <;> rfl

theorem plus_comm (a b : Atom) : plus a b = plus b a := by
  unfold plus
  cases a <;> cases b <;> try rfl
  rename_i i j
  simp only
  rw [Int.add_comm]
  by_cases h : 0 ≤ i ∧ 0 ≤ j
  · rw [if_pos h, if_pos ⟨h.2, h.1⟩]
  · rw [if_neg h, if_neg (fun h' => h ⟨h'.2, h'.1⟩)]

/-! ### The machine -/

/-- From one state to another. -/
inductive Reach (M : Sem) (C : Code) : State → State → Prop
  | refl {s} : Reach M C s s
  | head {s t u} : step M C s = .next t → Reach M C t u → Reach M C s u

theorem Reach.trans {M : Sem} {C : Code} {s t u : State} (h : Reach M C s t) (h2 : Reach M C t u) : Reach M C s u := by
  induction h with
  | refl => exact h2
  | head h _ ih => exact .head h (ih h2)

theorem Reach.one {M : Sem} {C : Code} {s t : State} (h : step M C s = .next t) : Reach M C s t := .head h .refl

/-- Instructions handled by `step` itself. -/
def isCtl : Instr → Bool
  | .stop => true
  | .jump _ => true
  | .ifJump _ => true
  | .ifnJump _ => true
  | _ => false

theorem step_effect {M : Sem} {C : Code} {pc : Nat} {st st' : List Atom} {f f' : Frame} {b b' : Rat} {i : Instr}
    (hC : C[pc]? = some i) (hc : isCtl i = false) (he : effect M i st f b = some (st', f', b')) :
    step M C ⟨pc, st, f, b⟩ = .next ⟨pc + 1, st', f', b'⟩ := by
  unfold step
  simp only [hC]
  cases i <;> simp [isCtl] at hc <;> simp only [he]

theorem step_ifn {M : Sem} {C : Code} {pc : Nat} {t : Atom} {s : List Atom} {f : Frame} {b : Rat} {k : Nat}
    (hC : C[pc]? = some (.ifnJump (k : Int))) :
    step M C ⟨pc, t :: s, f, b⟩ = .next ⟨if t = .null then k else pc + 1, t :: s, f, b⟩ := by
  unfold step
  simp only [hC, isFalse, goto]
  by_cases h : t = .null
  · simp [h]
  · simp [h]

theorem step_if {M : Sem} {C : Code} {pc : Nat} {t : Atom} {s : List Atom} {f : Frame} {b : Rat} {k : Nat}
    (hC : C[pc]? = some (.ifJump (k : Int))) :
    step M C ⟨pc, t :: s, f, b⟩ = .next ⟨if t = .null then pc + 1 else k, t :: s, f, b⟩ := by
  unfold step
  simp only [hC, isTrue, goto]
  by_cases h : t = .null
  · simp [h]
  · simp [h]

theorem step_jump {M : Sem} {C : Code} {pc : Nat} {s : List Atom} {f : Frame} {b : Rat} {k : Nat}
    (hC : C[pc]? = some (.jump (k : Int))) :
    step M C ⟨pc, s, f, b⟩ = .next ⟨k, s, f, b⟩ := by
  unfold step
  simp only [hC, goto]
  simp

/-! ### Pieces of code -/

/-- Where the code for the next node begins. -/
def base (c : Code) : Nat := if isTopPop c then c.length - 1 else c.length

/-- The stack at the beginning of the code for the next node, if `s` is to be below its value. -/
def Entry (c : Code) (s s0 : List Atom) : Prop := if isTopPop c then ∃ x, s0 = x :: s else s0 = s

/-- `C` is as `c` from `b` on. -/
def Agree (C c : Code) (b : Nat) : Prop := ∀ i, b ≤ i → i < c.length → C[i]? = c[i]?

theorem topPop_emit (c : Code) (i : Instr) : isTopPop (c ++ [i]) = (i == .pop) := by
  simp [isTopPop]

theorem topPop_elim {c : Code} (h : isTopPop c = true) : ∃ d, c = d ++ [.pop] := by
  simp only [isTopPop, beq_iff_eq] at h
  exact List.getLast?_eq_some_iff.1 h

theorem base_le (c : Code) : base c ≤ c.length := by unfold base; split <;> omega

theorem base_of_not {c : Code} (h : isTopPop c = false) : base c = c.length := by simp [base, h]

theorem entry_of_not {c : Code} (h : isTopPop c = false) {s s0 : List Atom} : Entry c s s0 ↔ s0 = s := by simp [Entry, h]

theorem enter {M : Sem} {C c : Code} (ha : Agree C c (base c)) {s s0 : List Atom} (he : Entry c s s0) (f : Frame) (b : Rat) :
    Reach M C ⟨base c, s0, f, b⟩ ⟨c.length, s, f, b⟩ := by
  by_cases h : isTopPop c = true
  · obtain ⟨d, rfl⟩ := topPop_elim h
    simp only [Entry, h, if_true] at he
    obtain ⟨x, rfl⟩ := he
    have hb : base (d ++ [.pop]) = d.length := by simp [base, h]
    rw [hb] at ha ⊢
    have := ha d.length (Nat.le_refl _) (by simp)
    rw [show (d ++ [Instr.pop])[d.length]? = some .pop by simp] at this
    have hs := step_effect (M := M) (st := x :: s) (f := f) (b := b) this rfl rfl
    simpa using Reach.one hs
  · simp only [Bool.not_eq_true] at h
    rw [entry_of_not h] at he
    subst he
    rw [base_of_not h]
    exact .refl

theorem take_get {c d : Code} {n : Nat} (h : c.take n = d.take n) {i : Nat} (hi : i < n) : c[i]? = d[i]? := by
  rw [← List.getElem?_take_of_lt hi, ← List.getElem?_take_of_lt (l := d) hi, h]

theorem Rel.assign {ctx : Ctx} {sub : Nat → Nat → Attr → Atom} {ts : List R} {f : Frame} {w : World R}
    (h : Rel ctx sub ts f w) (a : Attr) (v : Atom) :
    Rel ctx sub ts (f.set a v) { w with attr := fun b => if b = a then v else w.attr b } := by
  constructor
  · intro b
    rw [Frame.get_set]
    simp only [h.attr]
  · rw [(f.set_score a v).1]; exact h.score
  · rw [(f.set_score a v).2.1]; exact h.tree
  · rw [(f.set_score a v).2.2]; exact h.printed
  · intro s n ix hp b
    rw [Frame.set_sub]
    exact h.subs s n ix hp b

theorem Rel.unify {ctx : Ctx} {sub : Nat → Nat → Attr → Atom} {ts : List R} {f : Frame} {w : World R}
    (h : Rel ctx sub ts f w) (a : Attr) (v : Atom) :
    (unifyAttr f a v).1 = Gobio.unify (w.attr a) v ∧ Rel ctx sub ts (unifyAttr f a v).2
      (if w.attr a = .any then { w with attr := fun b => if b = a then v else w.attr b } else w) := by
  have ha := h.attr a
  unfold unifyAttr Gobio.unify
  rw [ha]
  by_cases h1 : w.attr a = v
  · rw [if_neg (by simpa using h1), if_pos h1]
    refine ⟨h1.symm, ?_⟩
    split
    · have : (fun b => if b = a then v else w.attr b) = w.attr := by
        funext b
        split
        · rename_i hb; rw [hb, h1]
        · rfl
      rw [this]
      exact h
    · exact h
  · rw [if_pos h1, if_neg h1]
    by_cases h2 : w.attr a = .any
    · rw [if_pos h2, if_pos h2, if_pos h2]
      exact ⟨rfl, h.assign a v⟩
    · rw [if_neg h2, if_neg h2, if_neg h2]
      split
      · exact ⟨rfl, h⟩
      · exact ⟨rfl, h⟩

/-- The code from `c` to `c'` does `ev`; it leaves nothing below the value if `cl`. -/
structure Good (ctx : Ctx) (M : Sem) (sub : Nat → Nat → Attr → Atom) (ev : World R → Atom × World R) (cl : Bool)
    (c c' : Comp R) : Prop where
  pre : c'.code.take (base c.code) = c.code.take (base c.code)
  len : base c.code < c'.code.length
  trees : c.trees <+: c'.trees
  last : isTopPop c'.code = false
  lastElse : c'.lastElse = -1
  runs : ∀ C ts f w s s0, Agree C c'.code (base c.code) → c'.trees <+: ts → Rel ctx sub ts f w → Entry c.code s s0 →
    ∃ f' junk, Reach M C ⟨base c.code, s0, f, w.bonus⟩ ⟨c'.code.length, (ev w).1 :: (junk ++ s), f', (ev w).2.bonus⟩ ∧
      Rel ctx sub ts f' (ev w).2 ∧ (cl = true → junk = [])

section
variable {ctx : Ctx} {M : Sem} {sub : Nat → Nat → Attr → Atom}

/-- One instruction that puts a value on the stack. -/
theorem good_emit0 (c : Comp R) (i : Instr) (ts' : List R) (hi : isCtl i = false) (hp : i ≠ .pop) (ev : World R → Atom × World R)
    (he : ∀ ts f w s, c.trees ++ ts' <+: ts → Rel ctx sub ts f w → ∃ f', effect M i s f w.bonus = some ((ev w).1 :: s, f', (ev w).2.bonus) ∧
      Rel ctx sub ts f' (ev w).2) : Good ctx M sub ev true c { c.emit i with trees := c.trees ++ ts' } := by
  have hlen := base_le c.code
  constructor
  · simp only [Comp.emit]
    rw [List.take_append_of_le_length hlen]
  · simp only [Comp.emit, List.length_append, List.length_singleton]; omega
  · exact List.prefix_append _ _
  · simp only [Comp.emit, topPop_emit]
    simpa using hp
  · rfl
  · intro C ts f w s s0 ha ht hr hs
    obtain ⟨f', h1, h2⟩ := he ts f w s ht hr
    refine ⟨f', [], ?_, h2, fun _ => rfl⟩
    have a1 : Agree C c.code (base c.code) := by
      intro j hj hj'
      rw [ha j hj (by simp [Comp.emit]; omega)]
      simp only [Comp.emit]
      rw [List.getElem?_append_left hj']
    refine (enter a1 hs f w.bonus).trans ?_
    have hC : C[c.code.length]? = some i := by
      rw [ha _ hlen (by simp [Comp.emit])]
      simp [Comp.emit]
    have := Reach.one (step_effect (M := M) hC hi h1)
    simpa [Comp.emit] using this

/-- A leaf. -/
theorem good_leaf (c : Comp R) (p q : Instr) (hp : isCtl p = false) (hp' : p ≠ .pop) (hq : isCtl q = false) (hq' : q ≠ .pop)
    (val : World R → Atom)
    (he : ∀ ts f w s, Rel ctx sub ts f w → effect M p s f w.bonus = some (val w :: s, f, w.bonus))
    (he' : ∀ ts f w x s, Rel ctx sub ts f w → effect M q (x :: s) f w.bonus = some (val w :: s, f, w.bonus)) :
    Good ctx M sub (fun w => (val w, w)) true c (c.leaf p q) := by
  unfold Comp.leaf
  split
  · rename_i h
    obtain ⟨d, hd⟩ := topPop_elim h
    have hb : base c.code = d.length := by simp [base, h]; rw [hd]; simp
    have hdl : c.code.dropLast = d := by rw [hd]; simp
    constructor
    · simp only [hdl, hb]
      rw [hd]; simp
    · simp [hb, hdl]
    · exact List.prefix_refl _
    · simp only [topPop_emit]
      simpa using hq'
    · rfl
    · intro C ts f w s s0 ha ht hr hs
      refine ⟨f, [], ?_, hr, fun _ => rfl⟩
      simp only [Entry, h, if_true] at hs
      obtain ⟨x, rfl⟩ := hs
      simp only [hdl, hb] at ha ⊢
      have hC : C[d.length]? = some q := by
        rw [ha _ (Nat.le_refl _) (by simp)]
        simp
      have := Reach.one (step_effect (M := M) hC hq (he' ts f w x s hr))
      simpa using this
  · have := good_emit0 (ctx := ctx) (M := M) (sub := sub) c p [] hp hp' (fun w => (val w, w)) (by
      intro ts f w s _ hr
      exact ⟨f, he ts f w s hr, hr⟩)
    simpa [Comp.emit] using this

/-- One more instruction that works on the top of the stack. -/
theorem Good.emit1 {ev : World R → Atom × World R} {cl : Bool} {c c1 : Comp R} (h : Good ctx M sub ev cl c c1) (i : Instr)
    (hi : isCtl i = false) (hp : i ≠ .pop) (g : Atom → World R → Atom × World R)
    (he : ∀ ts f w v s, Rel ctx sub ts f w → ∃ f', effect M i (v :: s) f w.bonus = some ((g v w).1 :: s, f', (g v w).2.bonus) ∧
      Rel ctx sub ts f' (g v w).2) : Good ctx M sub (fun w => g (ev w).1 (ev w).2) cl c (c1.emit i) := by
  have hlen := h.len
  constructor
  · simp only [Comp.emit]
    rw [List.take_append_of_le_length (by omega)]
    exact h.pre
  · simp only [Comp.emit, List.length_append, List.length_singleton]; omega
  · exact h.trees
  · simp only [Comp.emit, topPop_emit]
    simpa using hp
  · rfl
  · intro C ts f w s s0 ha ht hr hs
    have a1 : Agree C c1.code (base c.code) := by
      intro j hj hj'
      rw [ha j hj (by simp [Comp.emit]; omega)]
      simp only [Comp.emit]
      rw [List.getElem?_append_left hj']
    obtain ⟨f1, junk, h1, h2, h3⟩ := h.runs C ts f w s s0 a1 ht hr hs
    obtain ⟨f2, h4, h5⟩ := he ts f1 (ev w).2 (ev w).1 (junk ++ s) h2
    refine ⟨f2, junk, h1.trans ?_, h5, h3⟩
    have hC : C[c1.code.length]? = some i := by
      rw [ha _ (by omega) (by simp [Comp.emit])]
      simp [Comp.emit]
    have := Reach.one (step_effect (M := M) hC hi h4)
    simpa [Comp.emit] using this

theorem pre_trans {a b c : Code} {n : Nat} (h1 : b.take n = a.take n) (hn : n ≤ b.length) (h2 : c.take b.length = b) :
    c.take n = a.take n := by
  rw [← h1]
  conv_rhs => rw [← h2, List.take_take]
  rw [Nat.min_eq_left hn]

theorem agree_pre {C b c : Code} {n : Nat} (h : Agree C c n) (h2 : c.take b.length = b) : Agree C b n := by
  intro i hi hi'
  have hl : b.length ≤ c.length := by
    have := congrArg List.length h2
    simp at this
    omega
  rw [h i hi (by omega)]
  conv_rhs => rw [← h2]
  rw [List.getElem?_take_of_lt hi']

theorem agree_mono {C c : Code} {n m : Nat} (h : Agree C c n) (hm : n ≤ m) : Agree C c m := fun i hi hi' => h i (by omega) hi'

/-- One after the other, without anything between them. -/
theorem Good.seq {ev1 ev2 : World R → Atom × World R} {cl : Bool} {c c1 c2 : Comp R} (h1 : Good ctx M sub ev1 cl c c1)
    (h2 : Good ctx M sub ev2 true c1 c2) :
    c2.code.take (base c.code) = c.code.take (base c.code) ∧ base c.code < c2.code.length ∧ c.trees <+: c2.trees ∧
    ∀ C ts f w s s0, Agree C c2.code (base c.code) → c2.trees <+: ts → Rel ctx sub ts f w → Entry c.code s s0 →
    ∃ f' junk, Reach M C ⟨base c.code, s0, f, w.bonus⟩
        ⟨c2.code.length, (ev2 (ev1 w).2).1 :: (ev1 w).1 :: (junk ++ s), f', (ev2 (ev1 w).2).2.bonus⟩ ∧
      Rel ctx sub ts f' (ev2 (ev1 w).2).2 ∧ (cl = true → junk = []) := by
  have hb := base_of_not h1.last
  have l1 := h1.len
  have l2 := h2.len
  rw [hb] at l2
  have p2 := h2.pre
  rw [hb] at p2
  simp only [List.take_length] at p2
  refine ⟨pre_trans h1.pre (by omega) p2, by omega, h1.trees.trans h2.trees, ?_⟩
  intro C ts f w s s0 ha ht hr hs
  obtain ⟨f1, junk, r1, e1, j1⟩ := h1.runs C ts f w s s0 (agree_pre ha p2) (h2.trees.trans ht) hr hs
  obtain ⟨f2, junk2, r2, e2, j2⟩ := h2.runs C ts f1 (ev1 w).2 ((ev1 w).1 :: (junk ++ s)) _ (agree_mono ha (by rw [hb]; omega)) ht e1
    ((entry_of_not h1.last).2 rfl)
  have := j2 rfl
  subst this
  rw [hb] at r2
  exact ⟨f2, junk, r1.trans r2, e2, j1⟩

/-- Two operands and an instruction. -/
theorem Good.emit2 {ev1 ev2 : World R → Atom × World R} {cl : Bool} {c c1 c2 : Comp R} (h1 : Good ctx M sub ev1 cl c c1)
    (h2 : Good ctx M sub ev2 true c1 c2) (i : Instr) (hi : isCtl i = false) (hp : i ≠ .pop)
    (g : Atom → Atom → World R → Atom × World R)
    (he : ∀ ts f w v q s, Rel ctx sub ts f w → ∃ f', effect M i (q :: v :: s) f w.bonus = some ((g v q w).1 :: s, f', (g v q w).2.bonus) ∧
      Rel ctx sub ts f' (g v q w).2) :
    Good ctx M sub (fun w => g (ev1 w).1 (ev2 (ev1 w).2).1 (ev2 (ev1 w).2).2) cl c (c2.emit i) := by
  obtain ⟨s1, s2, s3, s4⟩ := h1.seq h2
  constructor
  · simp only [Comp.emit]
    rw [List.take_append_of_le_length (by omega)]
    exact s1
  · simp only [Comp.emit, List.length_append, List.length_singleton]; omega
  · exact s3
  · simp only [Comp.emit, topPop_emit]
    simpa using hp
  · rfl
  · intro C ts f w s s0 ha ht hr hs
    have a1 : Agree C c2.code (base c.code) := by
      intro j hj hj'
      rw [ha j hj (by simp [Comp.emit]; omega)]
      simp only [Comp.emit]
      rw [List.getElem?_append_left hj']
    obtain ⟨f1, junk, r1, e1, j1⟩ := s4 C ts f w s s0 a1 ht hr hs
    obtain ⟨f2, h4, h5⟩ := he ts f1 _ (ev1 w).1 (ev2 (ev1 w).2).1 (junk ++ s) e1
    refine ⟨f2, junk, r1.trans ?_, h5, j1⟩
    have hC : C[c2.code.length]? = some i := by
      rw [ha _ (by omega) (by simp [Comp.emit])]
      simp [Comp.emit]
    have := Reach.one (step_effect (M := M) hC hi h4)
    simpa [Comp.emit] using this

/-- Three operands and an instruction. -/
theorem Good.emit3 {ev1 ev2 ev3 : World R → Atom × World R} {cl : Bool} {c c1 c2 c3 : Comp R} (h1 : Good ctx M sub ev1 cl c c1)
    (h2 : Good ctx M sub ev2 true c1 c2) (h3 : Good ctx M sub ev3 true c2 c3) (i : Instr) (hi : isCtl i = false) (hp : i ≠ .pop)
    (g : Atom → Atom → Atom → World R → Atom × World R)
    (he : ∀ ts f w v q x s, Rel ctx sub ts f w →
      ∃ f', effect M i (x :: q :: v :: s) f w.bonus = some ((g v q x w).1 :: s, f', (g v q x w).2.bonus) ∧
      Rel ctx sub ts f' (g v q x w).2) :
    Good ctx M sub (fun w => g (ev1 w).1 (ev2 (ev1 w).2).1 (ev3 (ev2 (ev1 w).2).2).1 (ev3 (ev2 (ev1 w).2).2).2) cl c (c3.emit i) := by
  obtain ⟨s1, s2, s3, s4⟩ := h1.seq h2
  have hb := base_of_not h2.last
  have l3 := h3.len
  rw [hb] at l3
  have p3 := h3.pre
  rw [hb] at p3
  simp only [List.take_length] at p3
  constructor
  · simp only [Comp.emit]
    rw [List.take_append_of_le_length (by omega)]
    exact pre_trans s1 (by omega) p3
  · simp only [Comp.emit, List.length_append, List.length_singleton]; omega
  · exact s3.trans h3.trees
  · simp only [Comp.emit, topPop_emit]
    simpa using hp
  · rfl
  · intro C ts f w s s0 ha ht hr hs
    have a1 : Agree C c3.code (base c.code) := by
      intro j hj hj'
      rw [ha j hj (by simp [Comp.emit]; omega)]
      simp only [Comp.emit]
      rw [List.getElem?_append_left hj']
    obtain ⟨f1, junk, r1, e1, j1⟩ := s4 C ts f w s s0 (agree_pre a1 p3) (h3.trees.trans ht) hr hs
    obtain ⟨f2, junk2, r2, e2, j2⟩ := h3.runs C ts f1 _ _ _ (agree_mono a1 (by rw [hb]; omega)) ht e1
      ((entry_of_not h2.last).2 rfl)
    have := j2 rfl
    subst this
    rw [hb] at r2
    obtain ⟨f3, h4, h5⟩ := he ts f2 _ (ev1 w).1 (ev2 (ev1 w).2).1 (ev3 (ev2 (ev1 w).2).2).1 (junk ++ s) e2
    refine ⟨f3, junk, (r1.trans r2).trans ?_, h5, j1⟩
    have hC : C[c3.code.length]? = some i := by
      rw [ha _ (by omega) (by simp [Comp.emit])]
      simp [Comp.emit]
    have := Reach.one (step_effect (M := M) hC hi h4)
    simpa [Comp.emit] using this

end

end Verif.Gobio
