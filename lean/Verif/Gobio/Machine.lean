import Verif.Basic

/-!
The stack machine that runs the conditions of grammar rules: tools/parsers/gobio/rules/expression_runner.tpl,
opcodes.hpp, compiled_expression.tpl; values of common/zvalue.hpp; attributes of avmatrix/av_matrix.hpp.
-/
set_option linter.unusedVariables false
namespace Verif.Gobio
open Verif

/-- A `zvalue` (common/zvalue.hpp 13-38): `NULL`, the default value, a number or an object.  Numbers are exact (the code
loses bits of numbers from 2^30 on). -/
inductive Atom
  | null | any | int (i : Int) | obj (k : Nat)
deriving DecidableEq, Repr

/-- `is_true` (common/annotation_item_manager.cpp 249-251). -/
def isTrue (a : Atom) : Bool := a != Atom.null

/-- `is_false` (annotation_item_manager.cpp 244-246). -/
def isFalse (a : Atom) : Bool := a == Atom.null

/-- `from_bool` (annotation_item_manager.cpp 231-233). -/
def fromBool (b : Bool) : Atom := if b then .any else .null

/-- `av_matrix::get_attr` with a default (avmatrix/av_matrix.hpp 76-81); the default is always `NULL`. -/
def getAttr (m : List Atom) (i : Nat) : Atom := if m.length ≤ i then .null else m[i]?.getD Atom.null

/-- `av_matrix::set_attr` (av_matrix.hpp 83-106) with the default `NULL`; a missing vector is the empty one.  That the
vector is copied first if others have it is left out. -/
def setAttr (m : List Atom) (i : Nat) (v : Atom) : List Atom :=
  if m.length ≤ i then
    if v = .null then m else (m ++ List.replicate (i + 1 - m.length) Atom.null).set i v
  else if m[i]?.getD Atom.null = v then m
  else m.set i v

/-- An attribute: its number, and whether it is one of the extra attributes. -/
structure Attr where
  extra : Bool
  id : Nat
deriving DecidableEq, Repr

/-- The instructions (rules/opcodes.hpp 6-53) with their arguments.  Variants for extra attributes have the attribute
marked.  `S` is rational. -/
inductive Instr
  | add | addConst (t : Atom)
  | alwaysFalse | alwaysTrue
  | assign (a : Attr) | assignConst (a : Attr) (t : Atom)
  | equal | equalConst (t : Atom)
  | uassign (a : Attr) | uassignConst (a : Attr) (t : Atom)
  | hooking | hookingConst (t : Atom)
  | ifJump (i : Int) | ifnJump (i : Int) | jump (i : Int)
  | nop | not
  | notEqual | notEqualConst (t : Atom)
  | pop | print
  | push (t : Atom) | pushFalse | pushTrue | pushVar (a : Attr) | pushSubvar (a : Attr) (ix : Nat)
  | sem | semConst (t : Atom) | triSem
  | settop (t : Atom) | settopVar (a : Attr) | settopSubvar (a : Attr) (ix : Nat)
  | setScore (s : Rat) | stop | treeChoice (k : Nat)
  | uequal | uequalConst (t : Atom)
deriving DecidableEq, Repr

abbrev Code := List Instr

/-- `runner_frame` (expression_runner.hpp 15-25) and what is printed. -/
structure Frame where
  lhs : List Atom := []
  extraLhs : List Atom := []
  rhs : List (List Atom) := []
  extraRhs : List (List Atom) := []
  score : Rat := 0
  tree : Nat := 0
  printed : List Atom := []
deriving DecidableEq, Repr

/-- The semantics machine: `intersect` and `tri_intersect` with their bonus. -/
structure Sem where
  intersect : Atom → Atom → Atom × Rat
  triIntersect : Atom → Atom → Atom → Atom × Rat

/-- Bit `k` of a number. -/
def bit (i : Int) (k : Nat) : Bool := i / 2 ^ k % 2 = 1

/-- `check_hook_` (expression_runner.tpl 19-34) for the bit `k`: the new `v`, `none` for -1. -/
def checkHook (k : Nat) (q r : Int) (v : Int) : Option Int :=
  if bit q k && bit r k then none
  else if bit q k || bit r k then some (v + 2 ^ k)
  else some v

/-- The conjunction of the calls (expression_runner.tpl 47-54) from the bit `k` on, for `n` bits. -/
def checkHooks (q r : Int) : Nat → Nat → Int → Option Int
  | _, 0, v => some v
  | k, n + 1, v => (checkHook k q r v).bind (checkHooks q r (k + 1) n)

/-- `hooking` (expression_runner.tpl 36-60). -/
def hooking (a b : Atom) : Atom :=
  match a, b with
  | .int r, .int q => match checkHooks r q 0 8 0 with
    | none => .null
    | some v => .int v
  | _, _ => .null

/-- `add_` (expression_runner.tpl 62-79).  `AtomConverter::toInt` of `NULL` is 0 and `toAtom` makes a number of it. -/
def add (a b : Atom) : Atom :=
  match a, b with
  | .int i, .int j => if 0 ≤ i ∧ 0 ≤ j then .int (i + j) else .int 0
  | _, _ => .int 0

/-- `get_attr` of the left side. -/
def Frame.get (f : Frame) (a : Attr) : Atom := if a.extra then getAttr f.extraLhs a.id else getAttr f.lhs a.id

/-- `set_attr` of the left side. -/
def Frame.set (f : Frame) (a : Attr) (v : Atom) : Frame :=
  if a.extra then { f with extraLhs := setAttr f.extraLhs a.id v } else { f with lhs := setAttr f.lhs a.id v }

/-- An attribute of a symbol of the right side (expression_runner.tpl 315-327, 339-351); `none` is the exception. -/
def Frame.sub (f : Frame) (a : Attr) (ix : Nat) : Option Atom :=
  if a.extra then f.extraRhs[ix]?.map (getAttr · a.id) else f.rhs[ix]?.map (getAttr · a.id)

/-- `OPCODE_UASSIGN` and the others like it (expression_runner.tpl 190-233, 455-497): the value on the stack and the
frame. -/
def unifyAttr (f : Frame) (a : Attr) (t : Atom) : Atom × Frame :=
  if f.get a ≠ t then
    if f.get a = .any then (t, f.set a t)
    else if t = .any then (f.get a, f)
    else (.null, f)
  else (t, f)

/-- `OPCODE_UEQUAL` and `OPCODE_UEQUAL_CONST` (expression_runner.tpl 499-531); `t` is the top of the stack or what is left
of it, `q` the other operand. -/
def unifyTop (q t : Atom) : Atom := if q = t ∨ t = .any then q else if q = .any then t else .null

/-- Where the machine is. -/
structure State where
  pc : Nat
  stack : List Atom
  frame : Frame
  bonus : Rat := 0
deriving DecidableEq, Repr

/-- An instruction that is no jump: stack, frame and bonus after it.  `none`: empty stack or no such symbol, an exception. -/
def effect (M : Sem) : Instr → List Atom → Frame → Rat → Option (List Atom × Frame × Rat)
  | .add, q :: t :: s, f, b => some (add q t :: s, f, b)
  | .addConst c, t :: s, f, b => some (add t c :: s, f, b)
  | .alwaysFalse, _ :: s, f, b => some (.null :: s, f, b)
  | .alwaysTrue, _ :: s, f, b => some (.any :: s, f, b)
  | .assign a, t :: s, f, b => some (t :: s, f.set a t, b)
  | .assignConst a c, s, f, b => some (c :: s, f.set a c, b)
  | .equal, q :: t :: s, f, b => some (fromBool (q = t) :: s, f, b)
  | .equalConst c, t :: s, f, b => some (fromBool (t = c) :: s, f, b)
  | .uassign a, t :: s, f, b => some ((unifyAttr f a t).1 :: s, (unifyAttr f a t).2, b)
  | .uassignConst a c, s, f, b => some ((unifyAttr f a c).1 :: s, (unifyAttr f a c).2, b)
  | .hooking, q :: t :: s, f, b => some (hooking q t :: s, f, b)
  | .hookingConst c, t :: s, f, b => some (hooking t c :: s, f, b)
  | .nop, s, f, b => some (s, f, b)
  | .not, t :: s, f, b => some (fromBool (!isTrue t) :: s, f, b)
  | .notEqual, q :: t :: s, f, b => some (fromBool (q ≠ t) :: s, f, b)
  | .notEqualConst c, t :: s, f, b => some (fromBool (t ≠ c) :: s, f, b)
  | .pop, _ :: s, f, b => some (s, f, b)
  | .print, t :: s, f, b => some (.any :: s, { f with printed := f.printed ++ [t] }, b)
  | .push c, s, f, b => some (c :: s, f, b)
  | .pushFalse, s, f, b => some (.null :: s, f, b)
  | .pushTrue, s, f, b => some (.any :: s, f, b)
  | .pushVar a, s, f, b => some (f.get a :: s, f, b)
  | .pushSubvar a ix, s, f, b => (f.sub a ix).map (fun v => (v :: s, f, b))
  | .sem, q :: t :: s, f, b => some ((M.intersect t q).1 :: s, f, b + (M.intersect t q).2)
  | .semConst c, t :: s, f, b => some ((M.intersect t c).1 :: s, f, b + (M.intersect t c).2)
  | .triSem, w :: q :: t :: s, f, b => some ((M.triIntersect t q w).1 :: s, f, b + (M.triIntersect t q w).2)
  | .settop c, _ :: s, f, b => some (c :: s, f, b)
  | .settopVar a, _ :: s, f, b => some (f.get a :: s, f, b)
  | .settopSubvar a ix, _ :: s, f, b => (f.sub a ix).map (fun v => (v :: s, f, b))
  | .setScore v, s, f, b => some (.any :: s, { f with score := v }, b)
  | .treeChoice k, s, f, b => some (.any :: s, { f with tree := k }, b)
  | .uequal, q :: t :: s, f, b => some (unifyTop q t :: s, f, b)
  | .uequalConst c, t :: s, f, b => some (unifyTop c t :: s, f, b)
  | _, _, _, _ => none

/-- What happens at one instruction. -/
inductive Step
  | next (s : State) | halt | fault

/-- A jump; an address below 0 is outside of the code. -/
def goto (s : State) (i : Int) : Step := if i < 0 then .fault else .next { s with pc := i.toNat }

/-- One round of the loop of `run` (expression_runner.tpl 108-537). -/
def step (M : Sem) (C : Code) (s : State) : Step :=
  match C[s.pc]? with
  | none => .fault
  | some .stop => .halt
  | some (.jump i) => goto s i
  | some (.ifJump i) => match s.stack with
    | [] => .fault
    | t :: _ => if isTrue t then goto s i else .next { s with pc := s.pc + 1 }
  | some (.ifnJump i) => match s.stack with
    | [] => .fault
    | t :: _ => if isFalse t then goto s i else .next { s with pc := s.pc + 1 }
  | some x => match effect M x s.stack s.frame s.bonus with
    | none => .fault
    | some (st, f, b) => .next ⟨s.pc + 1, st, f, b⟩

/-- The loop for at most `n` rounds: the state at `OPCODE_STOP`. -/
def loop (M : Sem) (C : Code) : Nat → State → Option State
  | 0, _ => none
  | n + 1, s => match step M C s with
    | .next s => loop M C n s
    | .halt => some s
    | .fault => none

/-- `run` (expression_runner.tpl 87-546) with what is on the stack before it: the answer, the stack and the frame after
it.  `none`: an exception, or not finished after `n` rounds.  An empty expression is false (l. 95-96). -/
def run (M : Sem) (n : Nat) (C : Code) (stack : List Atom) (f : Frame) : Option (Bool × List Atom × Frame) :=
  if C = [] then some (false, stack, f)
  else match loop M C n ⟨0, stack, f, 0⟩ with
    | none => none
    | some s => match s.stack with
      | [] => none
      | t :: st => some (isTrue t, t :: st, { s.frame with score := s.frame.score + s.bonus })

end Verif.Gobio
