import Verif.Basic

/-!
Completion of pipelines: framework/auto_completer.cpp.

A promise (`ProcessorPromise`: a factory together with options) is an element of a type `P`; what the program asks it is
given by an `Env`.  Scores are rational numbers (the program adds up `double`s).  Log messages are left out.
-/
set_option linter.unusedVariables false
namespace Verif.Pipeline

/-- `AnnotatorFactory::LanguagesHandling` (common/annotator_factory.hpp 51-75). -/
inductive Handling
  | independent | one | dependent | guesser
deriving DecidableEq, Repr

/-- An `AnnotatorFactory`: what it says without options, and the promises made of it with the default options and with a
language. -/
structure Factory (P : Type) where
  required : List (List Str)
  provided : List Str
  default : P
  withLang : Str → P

/-- What the promises say (common/processor_promise.hpp 20-60) and the annotator factories of the keeper in the order of
their names.  `error` is the exception of `createProcessor`. -/
structure Env (P : Type) where
  required : P → List (List Str)
  provided : P → List Str
  handling : P → Handling
  languages : P → List Str
  clone : P → Str → P
  quality : P → Rat
  time : P → Rat
  error : P → Option Str
  factories : List (Factory P)

/-- How a run can go wrong: the model ran out of steps, or the behaviour of the program is undefined. -/
inductive Fault
  | steps | undefined
deriving DecidableEq, Repr

variable {P : Type} (env : Env P)

/-- `isSubset_` (auto_completer.cpp 238-254). -/
def isSubset (sub sup : List Str) : Bool := sub.all (fun t => sup.contains t)

/-- The loop of `isMultilingualProcessorPromiseAlternative_` (auto_completer.cpp 199-218).  That a processor for one language
has exactly one is asserted by the program. -/
def multiLoop : Option Str → List P → Bool
  | _, [] => false
  | o, p :: ps =>
    match env.handling p with
    | .dependent => true
    | .one =>
      match o with
      | none => multiLoop (env.languages p).head? ps
      | some l => if (env.languages p).head? ≠ some l then true else multiLoop (some l) ps
    | _ => multiLoop o ps

/-- `isMultilingualProcessorPromiseAlternative_` (auto_completer.cpp 199-218). -/
def isMultilingual (alt : List P) : Bool := multiLoop env none alt

/-- `checkRequiredTags_` (auto_completer.cpp 220-236). -/
def checkRequired (T : List Str) (done : List P) : Bool := done.any (fun q => isSubset T (env.provided q))

/-- `isViciousCircle_` (auto_completer.cpp 284-294). -/
def isViciousCircle (f : Factory P) (T : List Str) : Bool := f.required.any (fun R => isSubset T R)

/-- `getDefaultPromise_` (auto_completer.cpp 296-330). -/
def defaultPromise (f : Factory P) (lang : Option Str) : Option P :=
  match env.handling f.default with
  | .independent => some f.default
  | .guesser => some f.default
  | .one =>
    match lang with
    | none => some f.default
    | some l => if (env.languages f.default).head? ≠ some l then none else some f.default
  | .dependent =>
    match lang with
    | none => none
    | some l => if (env.languages f.default).contains l then some (f.withLang l) else none

/-- `findFulfillers_` (auto_completer.cpp 256-282). -/
def findFulfillers (T : List Str) (lang : Option Str) : List P :=
  env.factories.filterMap (fun f =>
    if !isViciousCircle f T && isSubset T f.provided then defaultPromise env f lang else none)

/-- `canHandleLanguage_` (auto_completer.cpp 458-481). -/
def canHandle (l : Str) (p : P) : Option P :=
  match env.handling p with
  | .independent => some p
  | .guesser => some p
  | .dependent => if (env.languages p).contains l then some (env.clone p l) else none
  | .one => if (env.languages p).contains l then some p else none

/-- `filtreByLanguage_` (auto_completer.cpp 440-456). -/
def filtre (alt : List P) (l : Str) : List P := alt.filterMap (canHandle env l)

/-- The language asked for when a processor lacks something (auto_completer.cpp 168-174). -/
def langOf (p : P) : Option Str :=
  match env.handling p with
  | .one => (env.languages p).head?
  | _ => none

/-- The first of the required tag lists that nothing before provides (auto_completer.cpp 154-161). -/
def unfulfilled (done : List P) (p : P) : Option (List Str) :=
  (env.required p).find? (fun T => !checkRequired env T done)

/-- The results of several calls one after another. -/
def collect {α β : Type} (g : α → Except Fault (List β)) : List α → Except Fault (List β)
  | [] => .ok []
  | a :: as => match g a with
    | .error e => .error e
    | .ok x => match collect g as with
      | .error e => .error e
      | .ok y => .ok (x ++ y)

/-- `complete_` (auto_completer.cpp 77-197).  The sequence is cut at `restartPosition` and at `iter`: `before`, `mid` and
`todo`; the alternatives before `iter` have one element.  The result is what the call appends to `alternativeSequences_`.
Without languages the alternative is erased; if `restartPosition` was there, it is used after that (undefined). -/
def complete (langs : List Str) : Nat → List P → List P → List (List P) → Except Fault (List (List P))
  | 0, _, _, _ => .error .steps
  | _ + 1, before, mid, [] => .ok [before ++ mid]
  | n + 1, before, mid, alt :: rest =>
    if isMultilingual env alt then
      if langs = [] then
        if mid.isEmpty then .error .undefined
        else complete langs n before [] (mid.map (fun p => [p]) ++ rest)
      else if (langs.map (filtre env alt)).any (fun a => a.isEmpty) then .ok []
      else complete langs n (before ++ mid) [] (langs.map (filtre env alt) ++ rest)
    else
      match alt with
      | [] => .error .undefined
      | [p] =>
        match unfulfilled env (before ++ mid) p with
        | none => complete langs n before (mid ++ [p]) rest
        | some T =>
          if (findFulfillers env T (langOf env p)).isEmpty then .ok []
          else complete langs n (before ++ mid) [] (findFulfillers env T (langOf env p) :: [p] :: rest)
      | _ :: _ :: _ =>
        collect (fun p => complete langs n [] [] ((before ++ mid).map (fun q => [q]) ++ [p] :: rest)) alt

/-- `calculateQualityScore_` (auto_completer.cpp 420-428). -/
def qualityOf (s : List P) : Rat := s.foldl (fun v p => v + env.quality p) 0

/-- `calculateEstimatedTime_` (auto_completer.cpp 430-438). -/
def timeOf (s : List P) : Rat := s.foldl (fun v p => v + env.time p) 0

/-- `checkSolution_` (auto_completer.cpp 399-417): the exception of the first processor that cannot be made. -/
def checkSolution (s : List P) : Option Str := s.findSome? env.error

/-- The condition of `trySolution_` (auto_completer.cpp 386-388), against the best solution so far. -/
def better (s b : List P) : Bool :=
  decide (qualityOf env s > qualityOf env b) ||
    (decide (qualityOf env s = qualityOf env b) && decide (timeOf env s < timeOf env b))

/-- The loop over the solutions (auto_completer.cpp 39-46): the best one with its position. -/
def tryAll : Nat → Option (Nat × List P) → List (List P) → Option (Nat × List P)
  | _, b, [] => b
  | i, none, s :: ss => tryAll (i + 1) (some (i, s)) ss
  | i, some b, s :: ss => if better env s b.2 then tryAll (i + 1) (some (i, s)) ss else tryAll (i + 1) (some b) ss

/-- The loop of `complete` (auto_completer.cpp 28-72) and what is after it: the sequence that was chosen, or none, or an
exception.  Every round takes one sequence off the list. -/
def choose : Nat → Option Str → List (List P) → Except Str (Option (List P))
  | 0, e, _ => match e with
    | none => .ok none
    | some x => .error x
  | n + 1, e, ss =>
    match tryAll env 0 none ss with
    | none => match e with
      | none => .ok none
      | some x => .error x
    | some (i, s) =>
      match checkSolution env s with
      | none => .ok (some s)
      | some x => choose n (some (e.getD x)) (ss.eraseIdx i)

/-- `AutoCompleter::complete` (auto_completer.cpp 19-75) on a new object. -/
def autoComplete (langs : List Str) (n : Nat) (sequence : List (List P)) : Except Fault (Except Str (Option (List P))) :=
  (complete env langs n [] [] sequence).map (fun ss => choose env ss.length none ss)

end Verif.Pipeline
