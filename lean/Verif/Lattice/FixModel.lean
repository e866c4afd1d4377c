import Verif.Lattice.Model

/-!
Model of the corrections of the text of a lattice: `common/lattice.cpp`, lines 825-905.

A correction adds symbol edges, so that the corrected text can be read along them.

Simplified: descriptors of vertices that do not exist give `undefined`.
-/
namespace Verif.Lattice
open Verif Verif.Tags Verif.Utf8

/-- The item of a symbol in a correction, `AnnotationItem("'"+symbol, StringFrag(symbol))`,
lattice.cpp 837, 892. -/
def symbolItem (symbol : Str) : Item := ⟨39 :: symbol, symbol, []⟩

/-- The loop of `correctionInsert`, lattice.cpp 828-842: a new loose vertex for every character.  `to` is
`none` as long as the variable is not initialised.  The fuel is the number of bytes that are left. -/
def insertLoop : Nat → State → Vertex → Option Vertex → Str → Except Exn (Option Vertex) × State
  | 0, s, _, to, rest => if rest = [] then (.ok to, s) else (.error .undefined, s)
  | n + 1, s, from_, to, rest =>
    if rest = [] then (.ok to, s)
    else
      let (v, s) := addLooseVertex s
      match validateNext rest with
      | .error _ => (.error .utf8, s)
      | .ok (cp, rest') =>
        match addEdge s { src := from_, tgt := v, item := symbolItem (append cp), tags := symbolTag } with
        | (.error x, s) => (.error x, s)
        | (.ok _, s) => insertLoop n s v (some v) rest'

/-- The last part of `correctionInsert`, lattice.cpp 843-849: an edge from the last new vertex to where the
first symbol edge of `here` leads. -/
def insertJoin (s : State) (here : Vertex) (to : Option Vertex) : Except Exn Unit × State :=
  match outEdges s here symbolMask with
  | ([], s) => (.ok (), s)
  | (e :: _, s) =>
    match to with
    | none => (.error .undefined, s)
    | some v =>
      match s.item e with
      | .error x => (.error x, s)
      | .ok it =>
        match addEdge s { src := v, tgt := s.tgt e, item := it, tags := symbolTag } with
        | (.error .noEdge, s) => (.ok (), s)
        | (.error x, s) => (.error x, s)
        | (.ok _, s) => (.ok (), s)

/-- `correctionInsert`, lattice.cpp 825-850. -/
def correctionInsert (s : State) (here : Vertex) (text : Str) : Except Exn Unit × State :=
  if s.validVertex here then
    match insertLoop text.length s here none text with
    | (.error x, s) => (.error x, s)
    | (.ok to, s) => insertJoin s here to
  else (.error .undefined, s)

/-- The handler of `NoEdgeException` in `correctionErase`, lattice.cpp 863-875: it asks for the edges that
leave `to` once more. -/
def eraseFallback (s : State) (to : Vertex) : Except Exn Unit × State :=
  match outEdges s to symbolMask with
  | ([], s) => (.error .wrongVertex, s)
  | (e :: _, s) =>
    match s.item e with
    | .error x => (.error x, s)
    | .ok it =>
      match addEdge s { src := s.src e, tgt := to, item := it, tags := symbolTag } with
      | (.error .noEdge, s) => (.error .wrongVertex, s)
      | (.error x, s) => (.error x, s)
      | (.ok _, s) => (.ok (), s)

/-- `correctionErase`, lattice.cpp 852-878. -/
def correctionErase (s : State) (from_ to : Vertex) : Except Exn Unit × State :=
  if from_ = to then (.ok (), s)
  else if s.validVertex to then
    match outEdges s to symbolMask with
    | ([], s) => eraseFallback s to
    | (e :: _, s) =>
      match s.item e with
      | .error x => (.error x, s)
      | .ok it =>
        match addEdge s { src := from_, tgt := s.tgt e, item := it, tags := symbolTag } with
        | (.error .noEdge, s) => eraseFallback s to
        | (.error x, s) => (.error x, s)
        | (.ok _, s) => (.ok (), s)
  else (.error .undefined, s)

/-- The body of the `try` block of `correctionReplace`, lattice.cpp 882-901.  The fuel is the number of bytes
that are left; `text` is the whole text. -/
def replaceLoop : Nat → State → Vertex → Vertex → Str → Str → Except Exn Unit × State
  | 0, s, from_, to, rest, _ => if rest = [] then correctionErase s from_ to else (.error .undefined, s)
  | n + 1, s, from_, to, rest, text =>
    if rest = [] then correctionErase s from_ to
    else if from_ = to then correctionInsert s from_ text
    else match validateNext rest with
      | .error _ => (.error .utf8, s)
      | .ok (cp, rest') =>
        if s.validVertex from_ then
          match outEdges s from_ symbolMask with
          | ([], s) => (.error .noEdge, s)
          | (e :: _, s) =>
            match s.item e with
            | .error x => (.error x, s)
            | .ok it =>
              let vertex := s.tgt e
              if append cp ≠ it.text then
                match addEdge s { src := from_, tgt := vertex, item := symbolItem (append cp), tags := symbolTag } with
                | (.error x, s) => (.error x, s)
                | (.ok _, s) => replaceLoop n s vertex to rest' text
              else replaceLoop n s vertex to rest' text
        else (.error .undefined, s)

/-- `correctionReplace`, lattice.cpp 880-905. -/
def correctionReplace (s : State) (from_ to : Vertex) (text : Str) : Except Exn Unit × State :=
  match replaceLoop text.length s from_ to text text with
  | (.error .noEdge, s) => (.error .wrongVertex, s)
  | r => r

end Verif.Lattice
