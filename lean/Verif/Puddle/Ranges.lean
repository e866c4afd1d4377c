import Verif.Basic

/-!
# From the elements of a rule to tokens

Model of `tools/parsers/puddle/puddle_util.cpp` lines 127–238, of the beginnings of the actions that
use them, of `rule.cpp` lines 60–104 and of `rule_modifier.cpp` lines 20–44.

A rule has elements; how many tokens each of them has matched is in `RuleTokenSizes`.  Reading
behind the end of that vector has no defined result: `none`.
-/

namespace Verif.Puddle

/-- Numbers of the type `unsigned int`. -/
def wrap : Nat := 4294967296

/-- `head - 1` for an `unsigned int` (puddle_util.cpp:139). -/
def pred32 (head : Nat) : Nat := (head + (wrap - 1)) % wrap

/-- The loop of `getGroupActionParams` (puddle_util.cpp:136-154) at the element `i`, with the three
sums; `none` if the head has matched nothing. -/
def groupLoop (start head1 stop : Nat) : Nat → List Nat → Nat → Nat → Nat → Option (Nat × Nat × Nat)
  | _, [], rs, rh, re => some (rs, rh, re)
  | i, n :: sizes, rs, rh, re =>
    let rs := if i < start then rs + n else rs
    let rh := if start ≤ i then if i < head1 then rh + n else rh else rh
    if i = head1 ∧ n = 0 then none
    else if i ≤ stop then groupLoop start head1 stop (i + 1) sizes rs rh (re + n)
    else some (rs, rh, re)

/-- `getGroupActionParams` (puddle_util.cpp:127-161): `realStart`, `realHead` and `realEnd`, or
`none` if it returns `false`. -/
def groupParams (sizes : List Nat) (start head stop : Nat) : Option (Nat × Nat × Int) :=
  match groupLoop start (pred32 head) stop 0 sizes 0 0 0 with
  | none => none
  | some (rs, rh, re) =>
    if (rs : Int) > (re : Int) - 1 then none else some (rs, rh, (re : Int) - 1)

/-- The loop of `getSyntokActionParams` and of `getRuleBoundaries` (puddle_util.cpp:169-179,
226-236). -/
def spanLoop (start stop : Nat) : Nat → List Nat → Nat → Nat → Nat × Nat
  | _, [], rs, re => (rs, re)
  | i, n :: sizes, rs, re =>
    let rs := if i < start then rs + n else rs
    if i ≤ stop then spanLoop start stop (i + 1) sizes rs (re + n) else (rs, re)

/-- `getSyntokActionParams` and `getRuleBoundaries` (puddle_util.cpp:164-182, 221-238). -/
def spanParams (sizes : List Nat) (start stop : Nat) : Nat × Int :=
  let r := spanLoop start stop 0 sizes 0 0
  (r.1, (r.2 : Int) - 1)

/-- The loop of `getDeleteActionParams`, `getAddActionParams`, `getTransformActionParams` and
`getUnifyActionTokenParams` (puddle_util.cpp:186-191, 197-202, 208-213, 224-229). -/
def beforeLoop : Nat → List Nat → Option Nat
  | 0, _ => some 0
  | _ + 1, [] => none
  | k + 1, n :: sizes => (beforeLoop k sizes).map (n + ·)

/-- `getDeleteActionParams`, `getAddActionParams`, `getTransformActionParams`. -/
def beforeParams (sizes : List Nat) (index : Nat) : Option Nat := beforeLoop (index - 1) sizes

/-- `getUnifyActionTokenParams` (puddle_util.cpp:216-231): `none` without a defined result,
`some none` if the element has matched nothing, otherwise `count` and `before`. -/
def unifyParams (sizes : List Nat) (index : Nat) : Option (Option (Nat × Nat)) :=
  if index = 0 then none
  else match sizes[index - 1]? with
    | none => none
    | some 0 => some none
    | some (n + 1) => (beforeLoop (index - 1) sizes).map fun b => some (n + 1, b)

/-- What a test of an action can come to. -/
inductive Tested
  | answer (b : Bool)
  | thrown
  | undefined
deriving DecidableEq, Repr

/-- `GroupAction::init` (group_action.cpp:95-111), the same in `JoinAction` and `AttachAction`: the
head that is kept. -/
def initHead (start stop head : Nat) : Nat :=
  if head > stop + 1 ∨ head ≤ start then
    if start = stop then 0 else (head % (stop + 1) + wrap - start) % wrap
  else head

/-- `GroupAction::test` (group_action.cpp:81-93), the same in `JoinAction` and `AttachAction`. -/
def groupTest (lastVertex : Nat) (sizes : List Nat) (head : Nat) : Tested :=
  if lastVertex < head then .answer false
  else match sizes[pred32 head]? with
    | none => .undefined
    | some 0 => .thrown
    | some (_ + 1) => .answer true

/-- The places, counted in tokens from where the rule has matched, at which `GroupAction::apply`
(group_action.cpp:25-51) looks for the edges of the start, of the head and of the end; `none` if it
throws. -/
def groupPlaces (sizes : List Nat) (start head stop : Nat) : Option (Nat × Nat × Int) :=
  groupParams sizes start head stop

/-- `RuleModifier::deleteRule` (rule_modifier.cpp:24-28), the same in `Rule::deleteAction`. -/
def deleteRule {α : Type} (rules : List α) (index : Nat) : List α :=
  if index < rules.length then rules.eraseIdx index else rules

/-- `RuleModifier::moveRule` (rule_modifier.cpp:30-43).  `none` if `at` throws, or if the place is
behind the end. -/
def moveRule {α : Type} (rules : List α) (from_ dest : Nat) : Option (List α) :=
  match rules[from_]? with
  | none => none
  | some tmp =>
    let f := if dest < from_ then 1 else 0
    let t := if from_ < dest then 1 else 0
    if dest + t ≤ rules.length then
      some ((rules.take (dest + t) ++ tmp :: rules.drop (dest + t)).eraseIdx (from_ + f))
    else none

/-- What the tests of the actions say, as far as `Rule::test` uses it: they get the sizes. -/
abbrev Act := List Nat → Bool

/-- The loop of `Rule::test` over the actions (rule.cpp:79-99). -/
def testLoop (limit last : Nat) : List Act → List Nat → Bool × List Nat
  | [], sizes => (true, sizes)
  | a :: acts, sizes =>
    if a sizes = false then
      if sizes.getD last 0 > limit then
        testLoop limit last acts (sizes.set last (sizes.getD last 0 - 1))
      else (false, sizes)
    else testLoop limit last acts sizes

/-- The least number of tokens of the last element (rule.cpp:84-90); the modifier is empty, `+`, `*`
or `?`. -/
def testLimit (modifier : Str) : Nat := if modifier = [43] ∨ modifier = [] then 1 else 0

/-- `Rule::test` (rule.cpp:57-104) after the sizes have been counted: whether the rule is to be
applied, and the sizes it is applied with. -/
def ruleTest (modifier : Str) (last : Nat) (acts : List Act) (sizes : List Nat) : Bool × List Nat :=
  testLoop (testLimit modifier) last acts sizes

/-- `Rule::apply` (rule.cpp:44-55): all actions are run, whatever they return; here each gives the
next state with its answer. -/
def ruleApply {σ : Type} (acts : List (σ → σ × Bool)) (s : σ) : σ × Bool :=
  acts.foldl (fun (r : σ × Bool) a => let q := a r.1; (q.1, if q.2 then true else r.2)) (s, false)

end Verif.Puddle
