import Verif.Basic

/-!
The agenda parser of `tools/parsers/gobio` (`parser/agenda_parser.hpp`, `parser/agenda_parser.tpl`, `parser/agenda.hpp`,
`parser/simple_cfg_combinator.tpl`, `chart/chart.tpl`).

The chart is kept in the lattice.  Of the lattice the model has what the parser uses: the list of edges, of which there is
at most one for two vertices and an annotation item (lattice.cpp, `addEdge`; see C04, C09), and the blank tokens.  Scores
are integers instead of `double`s.
-/

namespace Verif.Chart

/-- What the parser asks a combinator: `combine_unary`, `combine_binary` (the category and the score of each rule found)
and `is_useful`. -/
structure Grammar (C : Type) where
  unary : C → List (C × Int)
  binary : C → C → List (C × Int)
  useful : C → Bool := fun _ => true

/-- An edge of the chart.  `item` is its annotation item, `cat` what `edge_category` (chart.tpl 312-331) makes of it;
`visible`: it has one of the tags of the input mask (chart.tpl 34-44, 253-258). -/
structure Edge (C I : Type) where
  src : Nat
  tgt : Nat
  item : I
  cat : C
  visible : Bool := true
deriving DecidableEq, Repr

/-- One of the limits of a combinator (`get_limit_threshold`, `get_limit_min_score`); `none` for the largest `int` and the
smallest score. -/
structure Level where
  threshold : Option Nat := none
  min : Option Int := none

/-- What stays the same while the parser runs. -/
structure Params (C I : Type) where
  grammar : Grammar C
  /-- `toAnnotationItem` (chart.tpl 97) -/
  toItem : C → I
  /-- the source of the first blank token that ends at a vertex (chart.tpl 280-285) -/
  blankInto : Nat → Option Nat
  /-- the target of the first blank token that starts at a vertex (chart.tpl 299-304) -/
  blankFrom : Nat → Option Nat
  /-- `isAllowed(v - u, number of edges)` (chart.tpl 101) -/
  allowed : Nat → Nat → Bool := fun _ _ => true

/-- The chart, the scores of its edges, the agenda and the marked edges; edges are given by their numbers. -/
structure State (C I : Type) where
  edges : List (Edge C I)
  scores : List Int
  agenda : List Nat := []
  marked : List Nat := []

variable {C I : Type} [DecidableEq I]

/-- `edge_source(e, true)` (chart.tpl 274-291) for an edge that starts at `v`: all blanks before it are skipped.  A token
ends after its start; the comparison is there to make this function end. -/
def Params.before (p : Params C I) (v : Nat) : Nat :=
  match p.blankInto v with
  | none => v
  | some u => if u < v then p.before u else v
termination_by v

/-- `edge_target(e, true)` (chart.tpl 293-310) for an edge that ends at `v`: one blank is skipped (the call in line 305
does not pass the flag on). -/
def Params.after (p : Params C I) (v : Nat) : Nat := (p.blankFrom v).getD v

/-- The score of an edge. -/
def State.score (st : State C I) (i : Nat) : Int := st.scores.getD i 0

/-- The score is below the least score. -/
def below (x : Int) : Option Int → Bool
  | none => false
  | some m => x < m

/-- `add_edge` (chart.tpl 87-155) and the `push` after it: the edge is new if the number of edges grows.  If there is
such an edge, the lattice gives it one more partition and the better score, or throws `EdgeSelfReferenceException` if it
is among the links. -/
def addEdge (p : Params C I) (u v : Nat) (links : List Nat) (escore : Int) (st : State C I) (r : C × Int) : State C I :=
  if p.allowed (v - u) (st.edges.countP (fun e => e.src == u && e.tgt == v)) then
    match st.edges.findIdx? (fun e => e.src == u && e.tgt == v && e.item == p.toItem r.1) with
    | some i => if i ∈ links then st else { st with scores := st.scores.set i (max (st.score i) (escore + r.2)) }
    | none =>
      { st with
        edges := st.edges ++ [⟨u, v, p.toItem r.1, r.1, true⟩]
        scores := st.scores ++ [escore + r.2]
        agenda := st.agenda ++ [st.edges.length] }
  else st

/-- `apply_unary_rules_` (agenda_parser.tpl 116-147). -/
def applyUnary (p : Params C I) (st : State C I) (i : Nat) : State C I :=
  match st.edges[i]? with
  | none => st
  | some e => (p.grammar.unary e.cat).foldl (addEdge p e.src e.tgt [i] (st.score i)) st

/-- `apply_binary_rules_for_pair_` (agenda_parser.hpp 57-95). -/
def applyPair (p : Params C I) (min : Option Int) (st : State C I) (i j : Nat) : State C I :=
  if below (st.score i) min || below (st.score j) min then st
  else
    match st.edges[i]?, st.edges[j]? with
    | some e, some f =>
      (p.grammar.binary e.cat f.cat).foldl (addEdge p e.src f.tgt [i, j] (st.score i + st.score j)) st
    | _, _ => st

/-- `marked_in_edges` and `marked_out_edges` of a vertex (chart.hpp 21-47, chart.tpl 230-238, 267-272). -/
def State.markedIn (st : State C I) (v : Nat) : List Nat :=
  st.marked.filter (fun j => match st.edges[j]? with | some f => f.tgt == v | none => false)

/-- See `markedIn`. -/
def State.markedOut (st : State C I) (v : Nat) : List Nat :=
  st.marked.filter (fun j => match st.edges[j]? with | some f => f.src == v | none => false)

/-- `apply_binary_rules_algorithm::apply` (agenda_parser.hpp 22-54). -/
def applyBinary (p : Params C I) (min : Option Int) (st : State C I) (i : Nat) : State C I :=
  match st.edges[i]? with
  | none => st
  | some e =>
    let st := (st.markedIn (p.before e.src)).foldl (fun st j => applyPair p min st j i) st
    (st.markedOut (p.after e.tgt)).foldl (fun st j => applyPair p min st i j) st

/-- The end of a round of `go_` (agenda_parser.tpl 103-110): unary rules, binary rules, mark. -/
def process (p : Params C I) (min : Option Int) (st : State C I) (i : Nat) : State C I :=
  let st := applyBinary p min (applyUnary p st i) i
  { st with marked := st.marked ++ [i] }

/-- The limit is passed (agenda_parser.tpl 78). -/
def Level.passed (l : Level) (n : Nat) : Bool :=
  match l.threshold with
  | none => false
  | some t => n > t

/-- The loop of `go_` (agenda_parser.tpl 49-114) for at most `fuel` rounds; `none`: not finished.  `pick n` says which
element of the agenda is taken in round `n`, so every kind of agenda is covered; `is_astar` is false for all of them
(agenda.hpp 24, 82).  `level` is the current limit, `levels` are those to come. -/
def go (p : Params C I) (pick : Nat → Nat) : Nat → Nat → Level → List Level → State C I → Option (State C I)
  | 0, _, _, _, _ => none
  | fuel + 1, turns, level, levels, st =>
    match st.agenda[pick turns % st.agenda.length]? with
    | none => some st
    | some i =>
      let st := { st with agenda := st.agenda.eraseIdx (pick turns % st.agenda.length) }
      if level.passed (turns + 1 + st.agenda.length) then
        match levels with
        | [] => some st
        | level :: levels =>
          if below (st.score i) level.min then go p pick fuel (turns + 1) level levels st
          else go p pick fuel (turns + 1) level levels (process p level.min st i)
      else if below (st.score i) level.min then go p pick fuel (turns + 1) level levels st
      else go p pick fuel (turns + 1) level levels (process p level.min st i)

/-- `fill_` (agenda_parser.tpl 28-47). -/
def fill (p : Params C I) (min : Option Int) (st : State C I) : State C I :=
  { st with agenda := (List.range st.edges.length).filter (fun i =>
      match st.edges[i]? with
      | some e => e.visible && !below (st.score i) min && p.grammar.useful e.cat
      | none => false) }

/-- `run` (agenda_parser.tpl 20-26) on a chart with the given edges and scores. -/
def run (p : Params C I) (pick : Nat → Nat) (level : Level) (levels : List Level) (fuel : Nat) (edges : List (Edge C I))
    (scores : List Int) : Option (State C I) :=
  go p pick fuel 0 level levels (fill p level.min ⟨edges, scores, [], []⟩)

/-- `simple_cfg_combinator` (simple_cfg_combinator.hpp 117-118, simple_cfg_combinator.tpl 9-20): lists of rules, each with its right side, its left side and
its score. -/
structure Cfg (C : Type) where
  unary : List (C × (C × Int))
  binary : List ((C × C) × (C × Int))

/-- `combine_unary` and `combine_binary` (simple_cfg_combinator.tpl 22-46). -/
def Cfg.grammar [DecidableEq C] (g : Cfg C) : Grammar C where
  unary := fun a => (g.unary.filter (fun r => r.1 == a)).map Prod.snd
  binary := fun a b => (g.binary.filter (fun r => r.1.1 == a && r.1.2 == b)).map Prod.snd

end Verif.Chart
