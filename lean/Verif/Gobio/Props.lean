import Verif.Gobio.Jumps

/-!
Conditions of grammar rules: the compiler and the machine.
-/
set_option linter.unusedSimpArgs false
set_option linter.unusedVariables false
namespace Verif.Gobio
open Verif
variable {R : Type} {ctx : Ctx} {M : Sem} {sub : Nat → Nat → Attr → Atom}

theorem loop_reach {C : Code} {s t : State} (h : Reach M C s t) (ht : step M C t = .halt) :
    ∃ N, ∀ n, N ≤ n → loop M C n s = some t := by
  induction h with
  | refl =>
    refine ⟨1, fun n hn => ?_⟩
    obtain ⟨n, rfl⟩ : ∃ m, n = m + 1 := ⟨n - 1, by omega⟩
    rw [loop, ht]
  | head h _ ih =>
    obtain ⟨N, ih⟩ := ih ht
    refine ⟨N + 1, fun n hn => ?_⟩
    obtain ⟨n, rfl⟩ : ∃ m, n = m + 1 := ⟨n - 1, by omega⟩
    rw [loop, h]
    exact ih n (by omega)

/-- **C58.** The compiled condition is true for exactly those attributes for which the condition is, and it leaves the
attributes, the score, the tree and the printed values that the condition says.  What is on the stack before stays there.
Only for conditions that are `fine`; for others see the theorems below. -/
theorem C58_compiled_partial (ctx : Ctx) (M : Sem) (sub : Nat → Nat → Attr → Atom) (r0 : R) (e : Expr R) (he : e.fine = true)
    (code : Code) (trees : List R) (h : compile ctx r0 (some e.node) = some (code, trees)) (f : Frame) (w : World R)
    (hw : Rel ctx sub trees f w) (hb : w.bonus = 0) (stack : List Atom) :
    ∃ N f' junk, (∀ n, N ≤ n → run M n code stack f =
        some (isTrue (eval ctx M sub e w).1, (eval ctx M sub e w).1 :: (junk ++ stack), f')) ∧
      Rel ctx sub trees f' { (eval ctx M sub e w).2 with score := (eval ctx M sub e w).2.score + (eval ctx M sub e w).2.bonus } ∧
      (e.noElse = true → junk = []) := by
  simp only [compile, Option.map_eq_some_iff, Prod.mk.injEq] at h
  obtain ⟨c', h1, rfl, rfl⟩ := h
  have G := (compiled (M := M) (sub := sub) e he _ c' h1).good
  have ha : Agree (c'.code ++ [.stop]) c'.code 0 := by
    intro i _ hi
    rw [List.getElem?_append_left hi]
  obtain ⟨f', junk, r, hr, hj⟩ := G.runs (c'.code ++ [.stop]) c'.trees f w stack stack ha (List.prefix_refl _) hw rfl
  have hstop : (c'.code ++ [Instr.stop])[c'.code.length]? = some .stop := by simp
  obtain ⟨N, hN⟩ := loop_reach r (by unfold step; simp only [hstop])
  refine ⟨N, { f' with score := f'.score + (eval ctx M sub e w).2.bonus }, junk, ?_, ?_, hj⟩
  · intro n hn
    unfold run
    rw [if_neg (by simp)]
    have := hN n hn
    rw [show base (⟨[], [r0], -1⟩ : Comp R).code = 0 from rfl, hb] at this
    rw [this]
  · exact ⟨hr.attr, by simp [hr.score], hr.tree, hr.printed, hr.subs⟩

/-- **C58.** A rule without a condition is always applied and changes nothing. -/
theorem C58_none (ctx : Ctx) (M : Sem) (r0 : R) (stack : List Atom) (f : Frame) (n : Nat) (hn : 2 ≤ n) :
    (compile ctx r0 (none : Option (Node R))).map (fun c => run M n c.1 stack f) =
      some (some (true, Atom.any :: stack, { f with score := f.score + 0 })) := by
  obtain ⟨n, rfl⟩ : ∃ m, n = m + 2 := ⟨n - 2, by omega⟩
  rfl

/-! ### What is not compiled well -/

/-- A small setting: names are objects, no symbols on the right. -/
def ctx0 : Ctx := ⟨fun s => .obj s.length, fun _ _ => none, 1⟩

/-- Intersections of equal values only. -/
def sem0 : Sem := ⟨fun a b => (if a = b then a else .null, 0), fun a b c => (if a = b ∧ b = c then a else .null, 0)⟩

/-- An attribute of the left side. -/
def v (i : Nat) : Expr Unit := .attr ⟨false, i⟩

/-- A frame and its world. -/
def frame0 (l : List Atom) : Frame := { lhs := l }
def world0 (l : List Atom) : World Unit := ⟨(frame0 l).get, 0, 0, (), []⟩

/-- Is the answer of the compiled condition right?  (100 steps are enough for short ones, see C59.) -/
def right (e : Expr Unit) (l : List Atom) (stack : List Atom) : Bool :=
  match compile ctx0 () (some e.node) with
  | some (code, _) =>
    (run sem0 100 code stack (frame0 l)).map (·.1) == some (isTrue (eval ctx0 sem0 (fun _ _ _ => .null) e (world0 l)).1)
  | none => false

/-- **C58 is false in general.** `a = (x , 1) , y` is true if `x` is false and `y` is true: the jump after the assignment is left out,
because the code ends in an assignment of a true constant. -/
theorem C58_dropped_false : right (.and (.assign ⟨false, 0⟩ (.and (v 1) (.number 1))) (v 2)) [.null, .null, .obj 7] [] = false := by
  decide +kernel

/-- **C58 is false in general.** The second operand of a threefold intersection is not put on the stack if it is a constant: the machine
takes whatever is below, or stops with an error. -/
theorem C58_constant_false : right (.tri (v 0) (.name [65]) (v 0)) [.obj 1] [] = false ∧
    right (.tri (v 0) (.name [65]) (v 0)) [.obj 1] [.obj 2] = false := by
  constructor <;> decide +kernel

/-- **C58 is false in general.** `x == (c => x :: x)` is false if `c` is false: the negated condition is left on the stack. -/
theorem C58_else_false : right (.op .equal (v 0) (.ifElse (v 1) (v 0) (v 0))) [.obj 1] [] = false := by
  decide +kernel

/-- **C58 is false in general.** On the left 0 is a number, on the right it is the open value. -/
theorem C58_zero_false : right (.op .equal (.number 0) (v 0)) [.any] [] = false ∧ right (.op .equal (v 0) (.number 0)) [.any] [] = true := by
  constructor <;> decide +kernel

/-! ### Jumps -/

/-- **C59.** Compiled code ends in `STOP`, and all its jumps lead forward, to an instruction of the code; for any expression tree. -/
theorem C59_forward (ctx : Ctx) (r0 : R) (e : Option (Node R)) (code : Code) (trees : List R) (h : compile ctx r0 e = some (code, trees)) :
    code.getLast? = some .stop ∧ ∀ (i : Nat) (x : Instr) (t : Int), code[i]? = some x → x.target = some t → (i : Int) < t ∧ t < code.length := by
  cases e with
  | none =>
    simp only [compile, Option.some.injEq, Prod.mk.injEq] at h
    obtain ⟨rfl, _⟩ := h
    refine ⟨rfl, ?_⟩
    intro i x t hx ht
    match i with
    | 0 => simp at hx; subst hx; cases ht
    | 1 => simp at hx; subst hx; cases ht
    | _ + 2 => simp at hx
  | some e =>
    simp only [compile, Option.map_eq_some_iff, Prod.mk.injEq] at h
    obtain ⟨c', h1, rfl, _⟩ := h
    have A := ahead e _ c' h1
    refine ⟨by simp, ?_⟩
    intro i x t hx ht
    rw [List.getElem?_append] at hx
    split at hx
    · have := A.fwd i t x (by simp [base, isTopPop]) hx ht
      simp
      omega
    · rename_i hlt
      have : i = c'.code.length := by
        by_contra hne
        rw [List.getElem?_eq_none (by simp; omega)] at hx
        cases hx
      subst this
      simp at hx
      subst hx
      cases ht

/-- **C59.** So every compiled condition ends after at most as many steps as it has instructions: what has not ended by then never does. -/
theorem C59_ends (ctx : Ctx) (M : Sem) (r0 : R) (e : Option (Node R)) (code : Code) (trees : List R)
    (h : compile ctx r0 e = some (code, trees)) (stack : List Atom) (f : Frame) (n : Nat) (hn : code.length < n) :
    run M n code stack f = run M (code.length + 1) code stack f := by
  have hf := (C59_forward ctx r0 e code trees h).2
  have hF : Fwd code 0 := by
    intro i t x _ hx ht
    have := hf i x t hx ht
    omega
  unfold run
  rw [loop_ends hF (code.length + 1) ⟨0, stack, f, 0⟩ n (by simp) (by omega)]

/-- A condition with almost everything: `(x = n , (y ~ 4)) => ($0; score 3) :: print (z + 2), q == x`. -/
def big : Expr Unit :=
  .and (.ifElse (.and (.assign ⟨false, 0⟩ (.name [1, 2])) (.op .hooking (v 1) (.number 4))) (.or (.tree ()) (.score 3))
    (.print (.op .sum (v 2) (.number 2)))) (.op .equal (v 3) (v 0))

example : big.fine = true := by decide +kernel
example : right big [.null, .int 3, .int 5, .obj 2] [.null] = true ∧ right big [.null, .int 4, .int 5, .obj 2] [] = true ∧
    right big [.null, .int 4, .int 5, .obj 1] [] = true := by
  refine ⟨by decide +kernel, by decide +kernel, by decide +kernel⟩
example : (compile ctx0 () (some big.node)).isSome = true := by decide +kernel
example : Rel ctx0 (fun _ _ _ => .null) [(), ()] (frame0 [.null, .int 3, .int 5, .obj 2]) (world0 [.null, .int 3, .int 5, .obj 2]) :=
  ⟨fun _ => rfl, rfl, rfl, rfl, fun _ _ _ h => by cases h⟩

end Verif.Gobio
