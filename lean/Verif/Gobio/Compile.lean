import Verif.Gobio.Machine

/-!
The compiler of the conditions of grammar rules: tools/parsers/gobio/rules/compile_gruleexpression.tpl; its input is what
the parser (translator/grparser.y) makes.
-/
set_option linter.unusedVariables false
namespace Verif.Gobio
open Verif

/-- The binary operators (translator/grules.h 110-128). -/
inductive BiOp
  | and | or | assign | uassign | equal | notEqual | uequal | hooking | implication | else_ | sum | sem | binarg
deriving DecidableEq, Repr

/-- The unary operators. -/
inductive MonoOp
  | alwaysTrue | print
deriving DecidableEq, Repr

/-- `GRuleExpression` (grules.h 97-150).  Names of attributes are resolved (number and kind), symbols are numbers, tree
recipes are elements of `R`. -/
inductive Node (R : Type)
  | number (n : Int)
  | atom (s : Str)
  | attribute (a : Attr)
  | subAttribute (symbol no : Nat) (a : Attr)
  | mono (op : MonoOp) (l : Node R)
  | treeChoice (r : R)
  | setScore (s : Rat)
  | bi (op : BiOp) (l r : Node R)

/-- What the compiler is given: `from_string`, the positions of the symbols (`rhs_hash`) and `setscore_factor`. -/
structure Ctx where
  fromString : Str → Atom
  position : Nat → Nat → Option Nat
  factor : Rat

/-- The state of the compiler: the code, the tree recipes and `last_else_jmp_address`. -/
structure Comp (R : Type) where
  code : Code
  trees : List R
  lastElse : Int := -1

variable {R : Type}

/-- `push_instruction_…` (compiled_expression.tpl 14-69); the node is done (compile_gruleexpression.tpl 240-244). -/
def Comp.emit (c : Comp R) (i : Instr) : Comp R := { c with code := c.code ++ [i], lastElse := -1 }

/-- `is_constant` (compile_gruleexpression.cpp 91-97). -/
def isConst : Node R → Bool
  | .number _ => true
  | .atom _ => true
  | _ => false

/-- `expr_to_constant` (compile_gruleexpression.tpl 57-83); only called on constants. -/
def toConst (ctx : Ctx) : Node R → Atom
  | .number n => if n = 0 then .any else if n = -1 then .null else .int n
  | .atom s => ctx.fromString s
  | _ => .null

/-- `is_top_pop` (compile_gruleexpression.tpl 252-258). -/
def isTopPop (c : Code) : Bool := c.getLast? == some .pop

/-- `is_jump_or_ifnjump_to` (compile_gruleexpression.tpl 260-322). -/
def isJumpTo (c : Code) (addr : Nat) : Bool :=
  c.any (fun i => match i with
    | .ifnJump t => t == (addr : Int)
    | .jump t => t == (addr : Int)
    | _ => false)

/-- The switch of `is_top_true` (compile_gruleexpression.tpl 341-406).  For an assignment of a constant argument 0 is read,
but the constant is argument 1; argument 0 is a default value, `NULL`. -/
def putsTrue : Instr → Bool
  | .alwaysTrue => true
  | .print => true
  | .pushTrue => true
  | .treeChoice _ => true
  | .setScore _ => true
  | .assignConst _ _ => isTrue .null
  | .push t => isTrue t
  | .settop t => isTrue t
  | _ => false

/-- The loop of `is_top_true` (compile_gruleexpression.tpl 331-339) on the reversed code. -/
def topTrueRev : Code → Bool
  | [] => false
  | .assign _ :: c => topTrueRev c
  | i :: _ => putsTrue i

/-- `is_top_true` (compile_gruleexpression.tpl 324-410). -/
def isTopTrue (c : Code) : Bool := topTrueRev c.reverse

/-- `set_iarg(address, 0, …)` on a jump. -/
def setTarget (c : Code) (k : Nat) (t : Int) : Code :=
  match c[k]? with
  | some (.ifJump _) => c.set k (.ifJump t)
  | some (.ifnJump _) => c.set k (.ifnJump t)
  | some (.jump _) => c.set k (.jump t)
  | _ => c

/-- A leaf: `p`, or `q` in place of a `POP` before it (e.g. compile_gruleexpression.tpl 434-448). -/
def Comp.leaf (c : Comp R) (p q : Instr) : Comp R :=
  if isTopPop c.code then { c with code := c.code.dropLast ++ [q], lastElse := -1 } else c.emit p

/-- The attribute on the left of an assignment. -/
def leftAttr : Node R → Option Attr
  | .attribute a => some a
  | .subAttribute _ _ a => some a
  | _ => none

/-- Is it an `OPERATOR_BINARG`? -/
def isBinarg : Node R → Bool
  | .bi .binarg _ _ => true
  | _ => false

/-- The instruction of an operator whose operands are on the stack (compile_gruleexpression.tpl 660-745). -/
def opInstr : BiOp → Instr
  | .equal => .equal
  | .notEqual => .notEqual
  | .uequal => .uequal
  | .hooking => .hooking
  | .sem => .sem
  | .sum => .add
  | _ => .nop

/-- The instruction of an operator whose right operand is a constant. -/
def opConst (t : Atom) : BiOp → Instr
  | .equal => .equalConst t
  | .notEqual => .notEqualConst t
  | .uequal => .uequalConst t
  | .hooking => .hookingConst t
  | .sem => .semConst t
  | .sum => .addConst t
  | _ => .nop

/-- Before the right operand of `OPERATOR_AND` (compile_gruleexpression.tpl 150-171): the code and the address of the
`IFNJUMP`, if there is one. -/
def beforeAnd (c : Comp R) : Comp R × Option Nat :=
  if isTopTrue c.code && !isJumpTo c.code c.code.length then (c.emit .pop, none)
  else ((c.emit (.ifnJump (-1))).emit .pop, some c.code.length)

/-- After it (compile_gruleexpression.tpl 607-618). -/
def afterAnd (k : Option Nat) (c : Comp R) : Comp R :=
  match k with
  | none => { c with lastElse := -1 }
  | some k => { c with code := setTarget c.code k c.code.length, lastElse := -1 }

/-- After the right operand of `OPERATOR_IMPLICATION` (compile_gruleexpression.tpl 631-646). -/
def afterImplication (k : Nat) (c : Comp R) : Comp R :=
  { c with code := setTarget c.code k (if 0 ≤ c.lastElse then c.lastElse else c.code.length), lastElse := -1 }

/-- The loop of `compile_gruleexpression` and `compile_gruleexpression_node` (compile_gruleexpression.tpl 118-246,
414-756).  The stack of the nodes being visited is the recursion here.  `none`: an unknown symbol, or no attribute on the left of
an assignment. -/
def comp (ctx : Ctx) : Node R → Comp R → Option (Comp R)
  | .number n, c => some (c.leaf (.push (.int n)) (.settop (.int n)))
  | .atom s, c => some (c.leaf (.push (ctx.fromString s)) (.settop (ctx.fromString s)))
  | .attribute a, c => some (c.leaf (.pushVar a) (.settopVar a))
  | .subAttribute s n a, c => (ctx.position s n).map (fun ix => c.leaf (.pushSubvar a ix) (.settopSubvar a ix))
  | .mono .alwaysTrue l, c => (comp ctx l c).map (·.emit .alwaysTrue)
  | .mono .print l, c => (comp ctx l c).map (·.emit .print)
  | .treeChoice r, c => some { c.emit (.treeChoice c.trees.length) with trees := c.trees ++ [r] }
  | .setScore s, c => some (c.emit (.setScore (s * ctx.factor)))
  | .bi .assign l r, c =>
    (leftAttr l).bind (fun a =>
      if isConst r then some (c.emit (.assignConst a (toConst ctx r)))
      else (comp ctx r c).map (·.emit (.assign a)))
  | .bi .uassign l r, c =>
    (leftAttr l).bind (fun a =>
      if isConst r then some (c.emit (.uassignConst a (toConst ctx r)))
      else (comp ctx r c).map (·.emit (.uassign a)))
  | .bi .and l r, c =>
    (comp ctx l c).bind (fun c => (comp ctx r (beforeAnd c).1).map (afterAnd (beforeAnd c).2))
  | .bi .or l r, c =>
    (comp ctx l c).bind (fun c =>
      (comp ctx r ((c.emit (.ifJump (-1))).emit .pop)).map (afterAnd (some c.code.length)))
  | .bi .implication l r, c =>
    (comp ctx l c).bind (fun c =>
      (comp ctx r (((c.emit .not).emit (.ifJump (-1))).emit .pop)).map (afterImplication (c.code.length + 1)))
  | .bi .else_ l r, c =>
    (comp ctx l c).bind (fun c =>
      (comp ctx r (c.emit (.jump (-1)))).map (fun d =>
        { d with code := setTarget d.code c.code.length d.code.length, lastElse := (c.code.length : Int) + 1 }))
  | .bi .binarg l r, c =>
    (comp ctx l c).bind (fun c =>
      if isConst r then some { c with lastElse := -1 } else (comp ctx r c).map (fun c => { c with lastElse := -1 }))
  | .bi op l r, c =>
    (comp ctx l c).bind (fun c =>
      if op = .sem ∧ isBinarg l = true then (comp ctx r c).map (·.emit .triSem)
      else if isConst r then some (c.emit (opConst (toConst ctx r) op))
      else (comp ctx r c).map (·.emit (opInstr op)))

/-- `compile_gruleexpression` (compile_gruleexpression.tpl 92-248); `none` for no expression.  There is one tree recipe
already. -/
def compile (ctx : Ctx) (r0 : R) : Option (Node R) → Option (Code × List R)
  | none => some ([.pushTrue, .stop], [r0])
  | some e => (comp ctx e ⟨[], [r0], -1⟩).map (fun c => (c.code ++ [.stop], c.trees))

end Verif.Gobio
