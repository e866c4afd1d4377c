import Verif.Gobio.Compile

/-!
What the conditions of grammar rules mean, without a machine.
-/
namespace Verif.Gobio
open Verif

/-- The operators that look at the values of both operands. -/
inductive Op2
  | equal | notEqual | uequal | hooking | sem | sum
deriving DecidableEq, Repr

/-- Conditions as the grammar of rules has them. -/
inductive Expr (R : Type)
  | number (n : Int)
  | name (s : Str)
  | attr (a : Attr)
  | sub (symbol no : Nat) (a : Attr)
  | always (e : Expr R)
  | print (e : Expr R)
  | tree (r : R)
  | score (s : Rat)
  | assign (a : Attr) (e : Expr R)
  | uassign (a : Attr) (e : Expr R)
  | and (l r : Expr R)
  | or (l r : Expr R)
  | impl (l r : Expr R)
  | ifElse (l r e : Expr R)
  | op (o : Op2) (l r : Expr R)
  | tri (l m r : Expr R)

variable {R : Type}

/-- The operator as the parser writes it. -/
def Op2.biOp : Op2 → BiOp
  | .equal => .equal
  | .notEqual => .notEqual
  | .uequal => .uequal
  | .hooking => .hooking
  | .sem => .sem
  | .sum => .sum

/-- What the parser makes (translator/grparser.y 386-588). -/
def Expr.node : Expr R → Node R
  | .number n => .number n
  | .name s => .atom s
  | .attr a => .attribute a
  | .sub s n a => .subAttribute s n a
  | .always e => .mono .alwaysTrue e.node
  | .print e => .mono .print e.node
  | .tree r => .treeChoice r
  | .score s => .setScore s
  | .assign a e => .bi .assign (.attribute a) e.node
  | .uassign a e => .bi .uassign (.attribute a) e.node
  | .and l r => .bi .and l.node r.node
  | .or l r => .bi .or l.node r.node
  | .impl l r => .bi .implication l.node r.node
  | .ifElse l r e => .bi .implication l.node (.bi .else_ r.node e.node)
  | .op o l r => .bi o.biOp l.node r.node
  | .tri l m r => .bi .sem (.bi .binarg l.node m.node) r.node

/-- What a condition can change: attributes, score, bonus, the chosen tree and what is printed. -/
structure World (R : Type) where
  attr : Attr → Atom
  score : Rat
  bonus : Rat
  tree : R
  printed : List Atom

/-- Two values made one: one of them if the other is open. -/
def unify (a b : Atom) : Atom := if a = b then a else if a = .any then b else if b = .any then a else .null

/-- Hooks: the low eight bits of both numbers, which must not meet. -/
def hooks (a b : Atom) : Atom :=
  match a, b with
  | .int i, .int j =>
    if ∃ k < 8, bit i k = true ∧ bit j k = true then .null else .int (i % 256 + j % 256)
  | _, _ => .null

/-- Sum of numbers that are not negative; anything else counts as 0. -/
def plus (a b : Atom) : Atom :=
  match a, b with
  | .int i, .int j => if 0 ≤ i ∧ 0 ≤ j then .int (i + j) else .int 0
  | _, _ => .int 0

/-- The value of an operator and the bonus it gives. -/
def Op2.value (M : Sem) (o : Op2) (a b : Atom) : Atom × Rat :=
  match o with
  | .equal => (if a = b then .any else .null, 0)
  | .notEqual => (if a = b then .null else .any, 0)
  | .uequal => (unify a b, 0)
  | .hooking => (hooks a b, 0)
  | .sem => M.intersect a b
  | .sum => (plus a b, 0)

/-- What a number in a rule means: 0 is anything, -1 is false. -/
def numeral (n : Int) : Atom := if n = 0 then .any else if n = -1 then .null else .int n

/-- Evaluation from left to right; `,` and `;` stop as soon as the answer is known. -/
def eval (ctx : Ctx) (M : Sem) (sub : Nat → Nat → Attr → Atom) : Expr R → World R → Atom × World R
  | .number n, w => (numeral n, w)
  | .name s, w => (ctx.fromString s, w)
  | .attr a, w => (w.attr a, w)
  | .sub s n a, w => (sub s n a, w)
  | .always e, w => (.any, (eval ctx M sub e w).2)
  | .print e, w =>
    let r := eval ctx M sub e w
    (.any, { r.2 with printed := r.2.printed ++ [r.1] })
  | .tree r, w => (.any, { w with tree := r })
  | .score s, w => (.any, { w with score := s * ctx.factor })
  | .assign a e, w =>
    let r := eval ctx M sub e w
    (r.1, { r.2 with attr := fun b => if b = a then r.1 else r.2.attr b })
  | .uassign a e, w =>
    let r := eval ctx M sub e w
    (unify (r.2.attr a) r.1,
      if r.2.attr a = .any then { r.2 with attr := fun b => if b = a then r.1 else r.2.attr b } else r.2)
  | .and l r, w =>
    let x := eval ctx M sub l w
    if x.1 = .null then x else eval ctx M sub r x.2
  | .or l r, w =>
    let x := eval ctx M sub l w
    if x.1 = .null then eval ctx M sub r x.2 else x
  | .impl l r, w =>
    let x := eval ctx M sub l w
    if x.1 = .null then (.any, x.2) else eval ctx M sub r x.2
  | .ifElse l r e, w =>
    let x := eval ctx M sub l w
    if x.1 = .null then eval ctx M sub e x.2 else eval ctx M sub r x.2
  | .op o l r, w =>
    let x := eval ctx M sub l w
    let y := eval ctx M sub r x.2
    ((o.value M x.1 y.1).1, { y.2 with bonus := y.2.bonus + (o.value M x.1 y.1).2 })
  | .tri l m r, w =>
    let x := eval ctx M sub l w
    let y := eval ctx M sub m x.2
    let z := eval ctx M sub r y.2
    ((M.triIntersect x.1 y.1 z.1).1, { z.2 with bonus := z.2.bonus + (M.triIntersect x.1 y.1 z.1).2 })

/-- The frame shows the world: its attributes, the score, the chosen tree (a place in the list of trees), what is printed, and
the attributes of the symbols on the right. -/
structure Rel (ctx : Ctx) (sub : Nat → Nat → Attr → Atom) (ts : List R) (f : Frame) (w : World R) : Prop where
  attr : ∀ a, f.get a = w.attr a
  score : f.score = w.score
  tree : ts[f.tree]? = some w.tree
  printed : f.printed = w.printed
  subs : ∀ s n ix, ctx.position s n = some ix → ∀ a, f.sub a ix = some (sub s n a)

/-! ### Conditions that are compiled well -/

/-- A number or a name. -/
def Expr.const : Expr R → Bool
  | .number _ => true
  | .name _ => true
  | _ => false

/-- No alternative with `::` inside. -/
def Expr.noElse : Expr R → Bool
  | .always e => e.noElse
  | .print e => e.noElse
  | .assign _ e => e.noElse
  | .uassign _ e => e.noElse
  | .and l r => l.noElse && r.noElse
  | .or l r => l.noElse && r.noElse
  | .impl l r => l.noElse && r.noElse
  | .ifElse _ _ _ => false
  | .op _ l r => l.noElse && r.noElse
  | .tri l m r => l.noElse && m.noElse && r.noElse
  | _ => true

/-- No assignment of something with `,`, `;`, `=>`. -/
def Expr.plain : Expr R → Bool
  | .and _ _ => false
  | .or _ _ => false
  | .impl _ _ => false
  | .ifElse _ _ _ => false
  | .assign _ e => e.plain
  | _ => true

/-- What is evaluated last is not an assignment of something with `,`, `;`, `=>`. -/
def Expr.safe : Expr R → Bool
  | .assign _ e => e.plain
  | .and _ r => r.safe
  | .or _ r => r.safe
  | .impl _ r => r.safe
  | _ => true

/-- The conditions for which the compiler is right:
* 0 and -1 are only written as right operands;
* there is no `::` in the right operand of an operator other than `,`, `;`, `=>`;
* the second operand of a threefold intersection is no constant;
* what is before a comma does not end in an assignment of something with `,`, `;`, `=>`. -/
def Expr.fine : Expr R → Bool
  | .number n => n != 0 && n != -1
  | .always e => e.fine
  | .print e => e.fine
  | .assign _ e => e.const || e.fine
  | .uassign _ e => e.const || e.fine
  | .and l r => l.fine && r.fine && l.safe
  | .or l r => l.fine && r.fine
  | .impl l r => l.fine && r.fine
  | .ifElse l r e => l.fine && r.fine && e.fine
  | .op _ l r => l.fine && (r.const || (r.fine && r.noElse))
  | .tri l m r => l.fine && m.fine && m.noElse && !m.const && r.fine && r.noElse
  | _ => true

end Verif.Gobio
