import Verif.Utf8.Model

/-!
Model of the SRX segmenter (`tools/segmenters/srx/srx_segmenter.cpp`, `srx_rules.cpp`, `srx_rules.hpp`,
`common/escaping.cpp`): which rules apply, and where they cut a text.

The regular expression engine is a parameter: for a rule, `breaks m` are the positions at which a match of
`(?:before)(after)` that begins at `m` can have its break (the beginning of the group), in the order in which the engine
would try them.  The engine takes the first of them at the leftmost `m`.  Simplified: whether a rule matches at `m` does not
depend on where the search began, as it would with `\b`, `^` or a look-behind at the beginning of the piece that is searched.
Reading `text.data()[text.length()]` gives 0, as with `std::string`; with a `StringFrag` it is the next byte.
`assert`s are not modelled.
-/
namespace Verif.Srx
open Verif

/-- A rule as given: may the text be broken where it matches (`SrxRule`, srx_rules.hpp 15-28), and its matches. -/
structure Rule where
  breaking : Bool
  breaks : Nat → List Nat

/-- `utf8::unchecked::sequence_length(text.data() + pos)`. -/
def symAt (text : Str) (pos : Nat) : Nat := Utf8.sequenceLength ((text[pos]?).getD 0)

/-- A search for a rule from `start` on in a text of length `n` (`PerlRegExp::FindAndConsume`, srx_segmenter.cpp 366): the break
of the leftmost match. -/
def find (breaks : Nat → List Nat) (n start : Nat) : Option Nat :=
  (List.range' start (n + 1 - start)).findSome? (fun m => (breaks m).head?)

/-- `RuleApplication`, srx_segmenter.cpp 337-344; `none` is `npos`. -/
structure App where
  start : Nat
  brk : Option Nat
deriving DecidableEq, Repr

/-- `RuleApplication()`. -/
def App.fresh : App := ⟨0, none⟩

/-- `breakingPosition == npos || breakingPosition < minBreakPoint`, srx_segmenter.cpp 360-361. -/
def tooEarly (min : Nat) : Option Nat → Bool
  | none => true
  | some b => decide (b < min)

/-- The loop of `updatePosition_`, srx_segmenter.cpp 359-383; `none` if the given number of rounds is not enough. -/
def loop (text : Str) (breaks : Nat → List Nat) (min : Nat) : Nat → App → Option App
  | 0, _ => none
  | fuel + 1, a =>
    if a.start < text.length ∧ tooEarly min a.brk = true then
      match find breaks text.length a.start with
      | some b => loop text breaks min fuel ⟨a.start + symAt text a.start, some b⟩
      | none => loop text breaks min fuel ⟨text.length, none⟩
    else some a

/-- Lines 385-386 of `updatePosition_`. -/
def App.clear (min : Nat) (a : App) : App := if tooEarly min a.brk then { a with brk := none } else a

/-- `updatePosition_`, srx_segmenter.cpp 349-389; the new break point is `brk`. -/
def update (fuel : Nat) (text : Str) (breaks : Nat → List Nat) (min pos : Nat) (a : App) : Option App :=
  (loop text breaks min fuel { a with start := if a.start < pos then pos else a.start }).map (App.clear min)

/-- The rules as `processRule_` leaves them (srx_segmenter.cpp 105-117): breaking rules with the number of non-breaking ones before
them, and the non-breaking rules. -/
structure Rules where
  breaking : List ((Nat → List Nat) × Nat)
  nonBreaking : List (Nat → List Nat)

/-- `processRule_`, srx_segmenter.cpp 105-117. -/
def Rules.add (rs : Rules) (r : Rule) : Rules :=
  if r.breaking then { rs with breaking := rs.breaking ++ [(r.breaks, rs.nonBreaking.length)] }
  else { rs with nonBreaking := rs.nonBreaking ++ [r.breaks] }

/-- All rules, srx_segmenter.cpp 152-155. -/
def process (rules : List Rule) : Rules := rules.foldl Rules.add ⟨[], []⟩

/-- `breakingRuleApplications_` and `nonBreakingRuleApplications_`. -/
structure Apps where
  breaking : List App
  nonBreaking : List App
deriving DecidableEq, Repr

/-- After construction or `doReset`, srx_segmenter.cpp 169-173, 263-271. -/
def Apps.fresh (rs : Rules) : Apps := ⟨rs.breaking.map (fun _ => App.fresh), rs.nonBreaking.map (fun _ => App.fresh)⟩

/-- A candidate: the break point and the number of rules that can reject it. -/
abbrev Cand := Option (Nat × Nat)

/-- The candidate so far replaced by a nearer one, srx_segmenter.cpp 210-221. -/
def nearer (c : Cand) (brk : Option Nat) (count : Nat) : Cand :=
  match brk with
  | none => c
  | some b => match c with
    | none => some (b, count)
    | some (b', count') => if b < b' then some (b, count) else some (b', count')

/-- The loop over the breaking rules, srx_segmenter.cpp 201-222. -/
def scan (fuel : Nat) (text : Str) (min pos : Nat) : List ((Nat → List Nat) × Nat) → List App → Cand → Option (Cand × List App)
  | (breaks, count) :: rs, a :: as, c => do
    let a' ← update fuel text breaks min pos a
    let (c', as') ← scan fuel text min pos rs as (nearer c a'.brk count)
    return (c', a' :: as')
  | _, _, c => some (c, [])

/-- `checkBreakPoint_`, srx_segmenter.cpp 301-320: is the break point accepted, with `count` rules still to check. -/
def check (fuel : Nat) (text : Str) (p pos : Nat) : Nat → List (Nat → List Nat) → List App → Option (Bool × List App)
  | count + 1, breaks :: rs, a :: as => do
    let a' ← update fuel text breaks p pos a
    if a'.brk = some p then return (false, a' :: as)
    let (ok, as') ← check fuel text p pos count rs as
    return (ok, a' :: as')
  | _, _, as => some (true, as)

/-- The `do` loop of `performCutOff`, srx_segmenter.cpp 198-238: the accepted break point. -/
def cutLoop (fuel : Nat) (text : Str) (rs : Rules) (pos : Nat) : Nat → Nat → Apps → Option (Option Nat × Apps)
  | 0, _, _ => none
  | rounds + 1, min, st => do
    let (c, as) ← scan fuel text min pos rs.breaking st.breaking none
    match c with
    | none => return (none, ⟨as, st.nonBreaking⟩)
    | some (p, count) =>
      let (ok, ns) ← check fuel text p pos count rs.nonBreaking st.nonBreaking
      if ok then return (some p, ⟨as, ns⟩)
      else cutLoop fuel text rs pos rounds (p + symAt text p) ⟨as, ns⟩

/-- `performCutOff`, srx_segmenter.cpp 186-261, from `pos`: where the next piece ends; `none` inside is the end of the text
(`positionInText = npos`). -/
def cutOff (fuel : Nat) (text : Str) (rs : Rules) (pos : Nat) (st : Apps) : Option (Option Nat × Apps) :=
  cutLoop fuel text rs pos fuel (pos + symAt text pos) st

/-- Cutting until the end of the text (the loop in `Lattice::runCutterOnEdge_`, lattice.cpp 1237-1290): from and to of the pieces. -/
def cutAll (fuel : Nat) (text : Str) (rs : Rules) : Nat → Nat → Apps → Option (List (Nat × Nat))
  | 0, _, _ => none
  | rounds + 1, pos, st =>
    if pos < text.length then do
      let (q, st') ← cutOff fuel text rs pos st
      match q with
      | none => return [(pos, text.length)]
      | some p =>
        let l ← cutAll fuel text rs rounds p st'
        return (pos, p) :: l
    else some []

/-! ### Patterns -/

/-- The number of `\` at the end of what is before `pos`. -/
def slashes (s : Str) (pos : Nat) : Nat := ((s.take pos).reverse.takeWhile (fun b => b = 92)).length

/-- `Escaping::isEscaped`, escaping.cpp 4-12: `last`, if any, is `pos - 1 - slashes`. -/
def isEscaped (s : Str) (pos : Nat) : Bool :=
  if pos = 0 then false
  else if slashes s pos = (s.take pos).length then decide (pos % 2 = 1)
  else decide ((pos - (pos - 1 - slashes s pos)) % 2 = 0)

/-- `makeAllParensNonCapturing_`, srx_segmenter.cpp 128-142: the loop from `pos`; `none` if the rounds are not enough. -/
def parens : Nat → Str → Nat → Option Str
  | 0, _, _ => none
  | fuel + 1, ret, pos =>
    match (ret.drop pos).findIdx? (fun b => b = 40) with
    | none => some ret
    | some i =>
      let p := pos + i
      if isEscaped ret p = false ∧ ret[p + 1]? ≠ some 63 then
        parens fuel (ret.take (p + 1) ++ [63, 58] ++ ret.drop (p + 1)) (p + 3)
      else parens fuel ret (p + 1)

def makeAllParensNonCapturing (pattern : Str) : Option Str := parens (pattern.length + 1) pattern 0

/-- `makeRegexp_`, srx_segmenter.cpp 119-126. -/
def makeRegexp (before after : Str) : Option Str := do
  let b ← makeAllParensNonCapturing before
  let a ← makeAllParensNonCapturing after
  return [40, 63, 58] ++ b ++ [41, 40] ++ a ++ [41]

/-! ### Which rules apply -/

/-- A `languagemap`: does its pattern match the language, and the name of the rules. -/
structure LanguageMap where
  matches_ : Bool
  name : Str

/-- What can be in a `maprules` element: a map (SRX 2.0), a `maprule` with maps (SRX 1.0), something else. -/
inductive MapItem where
  | languagemap (m : LanguageMap)
  | maprule (l : List (Option LanguageMap))
  | other

/-- `processLanguageMap_`, srx_rules.cpp 81-95: the names, and is the search over. -/
def processLanguageMap (cascade : Bool) (names : List Str) (m : LanguageMap) : List Str × Bool :=
  if m.matches_ then (names ++ [m.name], !cascade) else (names, false)

/-- `processMapRule_`, srx_rules.cpp 70-79; `none` is some other element. -/
def processMapRule (cascade : Bool) : List Str → List (Option LanguageMap) → List Str × Bool
  | names, [] => (names, false)
  | names, none :: l => processMapRule cascade names l
  | names, some m :: l =>
    let r := processLanguageMap cascade names m
    if r.2 then r else processMapRule cascade r.1 l

/-- One item of `maprules`, srx_rules.cpp 51-65. -/
def processMapItem (cascade : Bool) (names : List Str) : MapItem → List Str × Bool
  | .languagemap m => processLanguageMap cascade names m
  | .maprule l => processMapRule cascade names l
  | .other => (names, false)

/-- `processMapRules_`, srx_rules.cpp 49-68. -/
def processMapRules (cascade : Bool) : List Str → List MapItem → List Str × Bool
  | names, [] => (names, false)
  | names, i :: l =>
    let r := processMapItem cascade names i
    if r.2 then r else processMapRules cascade r.1 l

/-- What can be in the body: `maprules`, or `languagerules` with named lists of rules. -/
inductive BodyItem (R : Type) where
  | maprules (l : List MapItem)
  | languagerules (l : List (Str × List R))
  | other

/-- `findLanguageRuleNames_`, srx_rules.cpp 37-47. -/
def findNames {R : Type} (cascade : Bool) : List Str → List (BodyItem R) → List Str
  | names, [] => names
  | names, .maprules l :: b =>
    let r := processMapRules cascade names l
    if r.2 then r.1 else findNames cascade r.1 b
  | names, _ :: b => findNames cascade names b

/-- `processLanguageRules_` and `processLanguageRule_`, srx_rules.hpp 68-93: the rules whose name is in the set. -/
def languageRules {R : Type} (names : List Str) (l : List (Str × List R)) : List R :=
  l.flatMap (fun r => if names.contains r.1 then r.2 else [])

/-- `getRules`, srx_rules.hpp 57-64, after the constructor. -/
def getRules {R : Type} (cascade : Bool) (body : List (BodyItem R)) : List R :=
  body.flatMap fun
    | .languagerules l => languageRules (findNames cascade [] body) l
    | _ => []

end Verif.Srx
