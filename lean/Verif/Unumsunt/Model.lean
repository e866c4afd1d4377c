import Verif.Annot.Model

/-!
Model of the tagset converter, `tools/converters/unumsunt/unumsunt_rule.{hpp,cpp}` and
`tools/converters/unumsunt/unumsunt.{hpp,cpp}`.

* Items are those of the model `Annot`; the vector of shared pointers is a list of slots, an empty
  pointer is `none`.  A pointer is shared only by the vector and the local variable `item`.
* `Err.fails` is an exception, a failed assertion or an access outside a bitset, `Err.fuel` says
  that the fuel was too little.  A loop does not end if no fuel is enough.
* Strings compare and are looked up by their bytes.  Sets and maps are lists; the first entry counts.
-/
namespace Verif.Unumsunt
open Verif Verif.Annot
open Verif.Server (ascii)

inductive Err
  | fails
  | fuel
  deriving DecidableEq

/-- `UnumsuntRule` (unumsunt_rule.hpp 52-70). -/
structure Rule where
  words : List Str
  conditions : List (Str × Str)
  commands : List (Str × Str)
  isSkip : Bool
  breeding : Nat
  deriving DecidableEq

/-- `UnumsuntRule()` (unumsunt_rule.hpp 22). -/
def Rule.new : Rule := ⟨[], [], [], false, 0⟩

/-- `CATEGORY_MARKER` (unumsunt_rule.cpp 13). -/
def catMarker : Str := ascii "CAT"

/-- Something that may fail. -/
def orFail {α : Type} : Option α → Except Err α
  | some a => .ok a
  | none => .error .fails

/-- The manager and an item. -/
abbrev MI := List Str × Item

/-- `substr(0, find('+'))` (unumsunt_rule.cpp 106). -/
def beforePlus (t : Str) : Str := t.takeWhile (· != 43)

/-- The test of the words (unumsunt_rule.cpp 106). -/
def wordsOk (r : Rule) (it : Item) : Bool := r.words.isEmpty || r.words.contains (beforePlus it.text)

/-- The loop over the conditions (unumsunt_rule.cpp 109-122). -/
def conditionsOk (m : List Str) (it : Item) : List (Str × Str) → Except Err Bool
  | [] => .ok true
  | (a, v) :: cs =>
    if a = catMarker then
      if v ≠ it.cat then .ok false else conditionsOk m it cs
    else do
      let w ← orFail (getValueAsString m it a)
      if w ≠ v then .ok false else conditionsOk m it cs

/-- `substr(1)`; an exception for the empty string. -/
def substr1 : Str → Except Err Str
  | [] => .error .fails
  | _ :: s => .ok s

/-- `setValue` (of the manager). -/
def put (mi : MI) (a : Str) (v : ZVal) : Except Err MI := orFail (setValue mi.1 mi.2 a v)

/-- One value of a command is used for an item (unumsunt_rule.cpp 145-163); `whole` is the value of the
command with all its alternatives. -/
def assign (mi : MI) (arg whole value : Str) : Except Err MI :=
  if arg = catMarker then
    if whole.head? = some 36 then do
      let a ← substr1 value
      let v ← orFail (getValueAsString mi.1 mi.2 a)
      return (mi.1, { mi.2 with cat := v })
    else return (mi.1, { mi.2 with cat := value })
  else if value.head? = some 36 then do
    let a ← substr1 value
    let v ← orFail (getValue mi.1 mi.2 a)
    put mi arg v
  else if value = ascii "0" then put mi arg .any
  else if value = ascii "-1" then put mi arg .null
  else put mi arg (ofString value)

/-- `boost::split` at `|` (unumsunt_rule.cpp 131-135). -/
def alternatives : Str → List Str
  | [] => [[]]
  | c :: s =>
    match alternatives s with
    | [] => [[]]
    | w :: ws => if c = 124 then [] :: w :: ws else (c :: w) :: ws

/-- The alternatives after the first (unumsunt_rule.cpp 136-164): copies of the item. -/
def copies (m : List Str) (it : Item) (arg whole : Str) : List Str → Except Err (List Str × List Item)
  | [] => .ok (m, [])
  | v :: vs => do
    let mi ← assign (m, it) arg whole v
    let r ← copies mi.1 it arg whole vs
    return (r.1, mi.2 :: r.2)

/-- One command (unumsunt_rule.cpp 130-165): the item changed, and the items that are pushed back. -/
def command (mi : MI) (c : Str × Str) : Except Err (MI × List Item) :=
  match alternatives c.2 with
  | [] => .ok (mi, [])
  | v :: vs => do
    let mi' ← assign mi c.1 c.2 v
    let r ← copies mi'.1 mi'.2 c.1 c.2 vs
    return ((r.1, mi'.2), r.2)

/-- The loop over the commands (unumsunt_rule.cpp 130-165). -/
def commands (mi : MI) : List (Str × Str) → Except Err (MI × List Item)
  | [] => .ok (mi, [])
  | c :: cs => do
    let (mi', new) ← command mi c
    let (mi'', new') ← commands mi' cs
    return (mi'', new ++ new')

/-- Whether the rule is used for an item (unumsunt_rule.cpp 106-125). -/
def satisfied (r : Rule) (m : List Str) (it : Item) : Except Err Bool :=
  if wordsOk r it then conditionsOk m it r.conditions else .ok false

/-- One round of the loop of `apply` (unumsunt_rule.cpp 101-167): the slot afterwards and the items
that are pushed back. -/
def visit (r : Rule) (m : List Str) : Option Item → Except Err (List Str × Option Item × List Item)
  | none => .ok (m, none, [])
  | some it => do
    if ← satisfied r m it then
      let (mi, new) ← commands (m, it) r.commands
      return (mi.1, if r.isSkip then none else some mi.2, new)
    else return (m, some it, [])

/-- The loop of `apply` (unumsunt_rule.cpp 101-167); the vector is what is done and what is still to
be visited. -/
def applyLoop (r : Rule) : Nat → List Str → List (Option Item) → List (Option Item) →
    Except Err (List Str × List (Option Item))
  | _, m, done, [] => .ok (m, done)
  | 0, _, _, _ :: _ => .error .fuel
  | fuel + 1, m, done, s :: todo => do
    let (m', s', new) ← visit r m s
    applyLoop r fuel m' (done ++ [s']) (todo ++ new.map some)

/-- `UnumsuntRule::apply` (unumsunt_rule.cpp 96-169); the result of type `bool` is not used and left out. -/
def apply (r : Rule) (fuel : Nat) (m : List Str) (items : List (Option Item)) :
    Except Err (List Str × List (Option Item)) := applyLoop r fuel m [] items

/-! ### The converter -/

/-- The maps of a converter (unumsunt.hpp 137-139). -/
structure Maps where
  cats : List (Str × Str)
  attrs : List (Str × Str)
  vals : List (Str × Str)

/-- `find` in a map filled by `insert`: the first entry counts. -/
def find (l : List (Str × Str)) (k : Str) : Option Str := (l.find? (fun e => e.1 = k)).map (·.2)

/-- The loop over attributes and values (unumsunt.cpp 260-286). -/
def convertValues (maps : Maps) (mi : MI) : List (Str × ZVal) → Except Err MI
  | [] => .ok mi
  | (a, v) :: avs => do
    let mi' ←
      match find maps.attrs a, find maps.vals (zvalueToString v) with
      | none, none => put mi a v
      | some b, none => put mi b v
      | none, some w => put mi a (ofString w)
      | some b, some w => put mi b (ofString w)
    convertValues maps mi' avs

/-- The item made for an edge before the rules are used (unumsunt.cpp 243-286). -/
def convertItem (maps : Maps) (m : List Str) (src : Item) : Except Err MI := do
  let cat := (find maps.cats src.cat).getD src.cat
  let avs ← orFail (getValuesAsZvalues m src)
  convertValues maps (m, Item.new cat src.text) avs

/-- The rules one after another (unumsunt.cpp 288-290). -/
def applyAll (fuel : Nat) : List Rule → List Str → List (Option Item) → Except Err (List Str × List (Option Item))
  | [], m, items => .ok (m, items)
  | r :: rs, m, items => do
    let (m', items') ← apply r fuel m items
    applyAll fuel rs m' items'

/-- The items for an edge, in the order in which edges are added for them (unumsunt.cpp 243-290, 306-330). -/
def convert (maps : Maps) (rules : List Rule) (fuel : Nat) (m : List Str) (src : Item) : Except Err (List Str × List Item) := do
  let mi ← convertItem maps m src
  let (m', items) ← applyAll fuel rules mi.1 [some mi.2]
  return (m', items.filterMap id)

/-! ### Rule files -/

/-- `addCondition`, `addWord` (unumsunt_rule.cpp 51-58). -/
def Rule.addCondition (r : Rule) (a v : Str) : Rule := { r with conditions := r.conditions ++ [(a, v)] }

def Rule.addWord (r : Rule) (w : Str) : Rule := { r with words := if w ∈ r.words then r.words else r.words ++ [w] }

/-- `addCommand` (unumsunt_rule.cpp 61-79); `none` if it throws. -/
def Rule.addCommand (r : Rule) (a v : Str) : Option Rule :=
  if r.isSkip then none
  else if 124 ∈ v then
    if r.breeding = 0 then some { r with breeding := 1, commands := r.commands ++ [(a, v)] } else none
  else some { r with commands := r.commands ++ [(a, v)] }

/-- `makeSkip` (unumsunt_rule.cpp 82-86). -/
def Rule.makeSkip (r : Rule) : Rule := { r with commands := [], breeding := 0, isSkip := true }

/-- `clearCommands` (unumsunt_rule.cpp 89-93). -/
def Rule.clearCommands (r : Rule) : Rule := { r with commands := [], breeding := 0, isSkip := false }

/-- `+(char_ - …)`: the longest nonempty run of characters allowed, and the rest. -/
def runOf (p : Byte → Bool) (s : Str) : Option (Str × Str) :=
  if (s.takeWhile p).isEmpty then none else some (s.takeWhile p, s.dropWhile p)

/-- `*(',' >> run)`: after a comma without a run the iteration is undone; each round takes a comma, so that the length is
enough fuel. -/
def moreRuns (p : Byte → Bool) : Nat → Str → List Str × Str
  | 0, s => ([], s)
  | fuel + 1, s =>
    match s with
    | [] => ([], [])
    | c :: s' =>
      if c = 44 then
        match runOf p s' with
        | none => ([], c :: s')
        | some (w, rest) => ((w :: (moreRuns p fuel rest).1), (moreRuns p fuel rest).2)
      else ([], c :: s')

/-- `run % ','`. -/
def runs (p : Byte → Bool) (s : Str) : Option (List Str × Str) :=
  match runOf p s with
  | none => none
  | some (w, rest) => some (w :: (moreRuns p rest.length rest).1, (moreRuns p rest.length rest).2)

/-- `UnumsuntRuleGrammar` (unumsunt.hpp 43-50); what follows the commands is not looked at. -/
def parseRule (s : Str) : Option (List Str × List Str) :=
  match runs (fun c => c != 44 && c != 62) s with
  | none => none
  | some (conds, rest) =>
    match rest with
    | a :: b :: rest' =>
      if a = 62 ∧ b = 62 then
        match runs (fun c => c != 44) rest' with
        | none => none
        | some (cmds, _) => some (conds, cmds)
      else none
    | _ => none

/-- `UnumsuntAssignmentGrammar` (unumsunt.hpp 75-82). -/
def parseAssignment (s : Str) : Option (Str × Str) :=
  match runOf (fun c => c != 44 && c != 61) s with
  | none => none
  | some (a, rest) =>
    match rest with
    | c :: rest' =>
      if c = 61 then
        match runOf (fun c => c != 44 && c != 61) rest' with
        | none => none
        | some (v, _) => some (a, v)
      else none
    | [] => none

/-- `boost::algorithm::trim_copy`. -/
def trim (s : Str) : Str := ((s.dropWhile isSpace).reverse.dropWhile isSpace).reverse

/-- Words separated by white space, as `>>` reads them. -/
def splitWords : Str → List Str
  | [] => []
  | c :: s =>
    if isSpace c then splitWords s
    else
      match s with
      | [] => [[c]]
      | d :: _ =>
        if isSpace d then [c] :: splitWords s
        else
          match splitWords s with
          | [] => [[c]]
          | w :: ws => (c :: w) :: ws

/-- A condition (unumsunt.cpp 168-186). -/
def addCond (r : Rule) (cond : Str) : Rule :=
  match parseAssignment cond with
  | some (a, v) => r.addCondition (trim a) (trim v)
  | none => (splitWords cond).foldl Rule.addWord r

/-- A command (unumsunt.cpp 187-209): the rules before the last and the last one; `none` if `addCommand` throws a second
time. -/
def addCmd (rs : List Rule × Rule) (cmd : Str) : Option (List Rule × Rule) :=
  if trim cmd = ascii "SKIP" then some (rs.1, rs.2.makeSkip)
  else
    match parseAssignment (trim cmd) with
    | none => some rs
    | some (a, v) =>
      match rs.2.addCommand (trim a) (trim v) with
      | some r => some (rs.1, r)
      | none =>
        match rs.2.clearCommands.addCommand (trim a) (trim v) with
        | some r => some (rs.1 ++ [rs.2], r)
        | none => none

/-- The commands one after another. -/
def addCmds (rs : List Rule × Rule) : List Str → Option (List Rule × Rule)
  | [] => some rs
  | c :: cs =>
    match addCmd rs c with
    | none => none
    | some rs' => addCmds rs' cs

/-- A line with a rule (unumsunt.cpp 163-214); `none` is an exception. -/
def readRule (line : Str) : Option (List Rule) :=
  match parseRule line with
  | none => none
  | some (conds, cmds) =>
    match addCmds ([], conds.foldl addCond Rule.new) cmds with
    | none => none
    | some (rs, r) => some (rs ++ [r])

/-- What is read from a file (unumsunt.hpp 132-141). -/
structure Config where
  source : Str
  target : Str
  tags : List Str
  maps : Maps
  rules : List Rule

def Config.empty : Config := ⟨[], [], [], ⟨[], [], []⟩, []⟩

/-- A word read by `>>`: the string stays empty if there is none. -/
def wordAt (ws : List Str) (i : Nat) : Str := (ws[i]?).getD []

/-- A line that begins with `@` (unumsunt.cpp 127-160).  (The line is trimmed, so reading a word reaches the end
of the line just with the last one.) -/
def readCommand (c : Config) (line : Str) : Option Config :=
  let ws := splitWords line
  let type := wordAt ws 0
  if type = ascii "source" then some { c with source := if 1 < ws.length then wordAt ws 1 else c.source }
  else if type = ascii "target" then some { c with target := if 1 < ws.length then wordAt ws 1 else c.target }
  else if type = ascii "tags" then some { c with tags := c.tags ++ ws.drop 1 }
  else
    let e := (wordAt ws 1, wordAt ws 2)
    if type = ascii "cat" then some { c with maps := { c.maps with cats := c.maps.cats ++ [e] } }
    else if type = ascii "attr" then some { c with maps := { c.maps with attrs := c.maps.attrs ++ [e] } }
    else if type = ascii "val" then some { c with maps := { c.maps with vals := c.maps.vals ++ [e] } }
    else none

/-- One line (unumsunt.cpp 122-217), trimmed and not empty. -/
def readLine (c : Config) : Str → Option Config
  | [] => some c
  | b :: line =>
    if b = 35 then some c
    else if b = 64 then readCommand c line
    else (readRule (b :: line)).map fun rs => { c with rules := c.rules ++ rs }

/-- `Unumsunt::Unumsunt` (unumsunt.cpp 104-219): the lines up to the first that is empty. -/
def readLines (c : Config) : List Str → Option Config
  | [] => some c
  | l :: ls =>
    if (trim l).isEmpty then some c
    else
      match readLine c (trim l) with
      | none => none
      | some c' => readLines c' ls

end Verif.Unumsunt
