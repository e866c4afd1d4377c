import Verif.Basic

/-!
Writers that go through the lattice from vertex to vertex: `common/lattice_iter_writer.{hpp,cpp}`, with the outputs of
`formats/simple/simple_lattice_writer_stream_output_iterator.cpp` and
`formats/json-simple/json_lattice_writer_output{,_iterator}.cpp`.
-/
set_option linter.unusedVariables false
namespace Verif.IterWriter
open Verif

/-! ### Going through the lattice -/

variable {I : Type}

/-- What is asked about an edge: where it ends, the names of its tags, is its text blank, is it discarded, does it match the basic tag,
its annotation item. -/
structure Edge (I : Type) where
  target : Int
  tags : List Str
  blank : Bool
  discarded : Bool
  basic : Bool
  item : I

/-- The settings (lattice_iter_writer.hpp 21-39). -/
structure Config where
  noAlts : Bool
  withBlank : Bool
  handled : List Str
  fallback : List Str

/-- Calls of the output iterator (common/lattice_writer_output_iterator.hpp). -/
inductive Ev (I : Type)
  | openGroup (tag : Str)
  | closeGroup (tag : Str)
  | openAlt
  | closeAlt
  | put (item : I)
deriving DecidableEq

/-- Order of strings, as in `std::map`. -/
def before : Str → Str → Bool
  | _, [] => false
  | [], _ :: _ => true
  | a :: s, b :: t => a < b || (a = b && before s t)

/-- Adding a key to a map. -/
def addKey (k : Str) : List Str → List Str
  | [] => [k]
  | a :: l => if a = k then a :: l else if before k a then k :: a :: l else a :: addKey k l

/-- `basicTagEdges`, `fallbackMap`, `targets` (0 where nothing was put) and its keys, `groupOpened`, and the calls so far
(lattice_iter_writer.cpp 5-25). -/
structure St (I : Type) where
  queue : List (Edge I)
  fb : Str → List (Edge I)
  targets : Str → Int
  known : List Str
  opened : Str → Bool
  evs : List (Ev I)

def start : St I := ⟨[], fun _ => [], fun _ => 0, [], fun _ => false, []⟩

/-- `withBlank_ || !trim_copy(text).empty()`. -/
def visible (cfg : Config) (e : Edge I) : Bool := cfg.withBlank || !e.blank

/-- One tag of an edge (lattice_iter_writer.cpp 54-73). `targets[tag]` puts the tag into the map. -/
def tagStep (cfg : Config) (v : Int) (e : Edge I) (s : St I) (t : Str) : St I :=
  let fb := if visible cfg e && cfg.fallback.contains t then fun u => if u = t then s.fb t ++ [e] else s.fb u else s.fb
  if cfg.handled.contains t then
    if s.targets t = v then
      let evs := s.evs ++ (if s.opened t then [.closeGroup t] else []) ++ [.openGroup t]
      let targets := fun u => if u = t then e.target else s.targets u
      let opened := fun u => if u = t then true else s.opened u
      ⟨s.queue, fb, targets, addKey t s.known, opened, evs⟩
    else ⟨s.queue, fb, s.targets, addKey t s.known, s.opened, s.evs⟩
  else ⟨s.queue, fb, s.targets, s.known, s.opened, s.evs⟩

/-- One edge (lattice_iter_writer.cpp 38-73). -/
def edgeStep (cfg : Config) (v : Int) (s : St I) (e : Edge I) : St I :=
  if e.discarded then s
  else e.tags.foldl (tagStep cfg v e) (if visible cfg e && e.basic then { s with queue := s.queue ++ [e] } else s)

/-- `printElements` (lattice_iter_writer.cpp 76-86). -/
def printing (cfg : Config) (s : St I) : Bool := cfg.handled.isEmpty || cfg.handled.any s.opened

/-- Edges of fallback tags (lattice_iter_writer.cpp 88-109): from the first queue that is not empty, if there are no others; all queues
are emptied.  The two loops are one here. -/
def fill : List Str → List (Edge I) → (Str → List (Edge I)) → List (Edge I) × (Str → List (Edge I))
  | [], q, fb => (q, fb)
  | t :: ts, q, fb => fill ts (if q.isEmpty then fb t else q) (fun u => if u = t then [] else fb u)

/-- `print edges` (lattice_iter_writer.cpp 111-133): the calls, and whether an alternative is open. -/
def printLoop (cfg : Config) (on : Bool) : Bool → List (Edge I) → List (Ev I) × Bool
  | o, [] => ([], o)
  | o, e :: q =>
    let r := if cfg.noAlts then ([], o || on) else printLoop cfg on (o || on) q
    ((if on then (if o then [] else [.openAlt]) ++ [.put e.item] else []) ++ r.1, r.2)

/-- One vertex (lattice_iter_writer.cpp 27-137). -/
def vertexStep (cfg : Config) (out : Int → List (Edge I)) (s : St I) (v : Int) : St I :=
  let s := (out v).foldl (edgeStep cfg v) s
  let f := fill cfg.fallback s.queue s.fb
  let r := printLoop cfg (printing cfg s) false f.1
  { s with queue := [], fb := f.2, evs := s.evs ++ r.1 ++ (if r.2 then [.closeAlt] else []) }

/-- All calls for the vertices in turn (lattice_iter_writer.cpp 27-156); groups are closed in the order of the map. -/
def run (cfg : Config) (out : Int → List (Edge I)) (vs : List Int) : List (Ev I) :=
  let s := vs.foldl (vertexStep cfg out) start
  s.evs ++ s.known.map .closeGroup

/-- The vertices that are visited if the writer is linear (lattice_iter_writer.cpp 139-147): along the first edge of each. -/
def linearPath (out : Int → List (Edge I)) : Nat → Int → List Int
  | 0, _ => []
  | f + 1, v => v :: (match out v with
    | [] => []
    | e :: _ => linearPath out f e.target)

/-! ### The simple output -/

/-- Streams of simple_lattice_writer_stream_output_iterator.hpp. -/
structure Simple where
  alt : Str
  altOpen : Bool
  block : Str
  main : Str
  seps : Str
  opened : Str → Bool

/-- Separators (`altSep_`, `sep_`, `sepMap_`). -/
structure Seps where
  altSep : Str
  sep : Str
  of : Str → Option Str

/-- `s.find(x) != npos`. -/
def contains (x : Str) : Str → Bool
  | [] => x.isEmpty
  | b :: s => x.isPrefixOf (b :: s) || contains x s

/-- `doCloseAlternative` (simple_lattice_writer_stream_output_iterator.cpp 48-57). -/
def Simple.closeAlt (c : Seps) (s : Simple) : Simple :=
  if s.alt ≠ [] then
    let block := (if s.block ≠ [] then s.block ++ c.sep else s.block) ++ s.alt
    { s with block := block, alt := [], altOpen := false }
  else { s with altOpen := false }

/-- `doCloseGroup` (simple_lattice_writer_stream_output_iterator.cpp 74-85). -/
def Simple.closeGroup (c : Seps) (s : Simple) (g : Str) : Simple :=
  match c.of g with
  | none => s
  | some _ =>
    let opened := fun u => if u = g then false else s.opened u
    if s.block ≠ [] then { s with main := s.main ++ s.seps ++ s.block, seps := [], block := [], opened := opened }
    else { s with opened := opened }

/-- `doOpenGroup` (simple_lattice_writer_stream_output_iterator.cpp 59-72). -/
def Simple.openGroup (c : Seps) (s : Simple) (g : Str) : Simple :=
  match c.of g with
  | none => s
  | some sep =>
    let s := if s.opened g then s.closeGroup c g else s
    let seps := if s.main ≠ [] ∧ contains sep s.seps = false then s.seps ++ sep else s.seps
    { s with seps := seps, opened := fun u => if u = g then true else s.opened u }

/-- `doPutElement` (simple_lattice_writer_stream_output_iterator.cpp 23-38). -/
def Simple.put (c : Seps) (s : Simple) (text : Str) : Simple :=
  if s.altOpen then { s with alt := (if s.alt ≠ [] then s.alt ++ c.altSep else s.alt) ++ text }
  else { s with block := (if s.block ≠ [] then s.block ++ c.sep else s.block) ++ text }

/-- `doOpenAlternative` (simple_lattice_writer_stream_output_iterator.cpp 40-46). -/
def Simple.openAlt (c : Seps) (s : Simple) : Simple :=
  let s := if s.altOpen then s.closeAlt c else s
  { s with alt := [], altOpen := true }

def Simple.step (c : Seps) (s : Simple) : Ev Str → Simple
  | .openGroup g => s.openGroup c g
  | .closeGroup g => s.closeGroup c g
  | .openAlt => s.openAlt c
  | .closeAlt => s.closeAlt c
  | .put t => s.put c t

/-- All calls, and `doFlush` (simple_lattice_writer_stream_output_iterator.cpp 87-91). -/
def simple (c : Seps) (evs : List (Ev Str)) : Str :=
  let s := evs.foldl (Simple.step c) ⟨[], false, [], [], [], fun _ => false⟩
  s.main ++ (s.block ++ s.alt)

/-- `getElementAnnotationItemStringToPut` (lattice_writer_output_iterator.cpp 31-41). -/
def shown (category text : Str) : Str := if text = [] then category else text

/-! ### The JSON output -/

/-- `boost::replace_all(output, "\\", "\\\\")` and the same for the quote. -/
def escapeByte (c : Byte) (s : Str) : Str := s.flatMap (fun b => if b = c then [92, c] else [b])

/-- `createEscapedJSONString_` (json_lattice_writer_output.cpp 186-194). -/
def quote (s : Str) : Str := [34] ++ escapeByte 34 (escapeByte 92 s) ++ [34]

/-- `printHashValueToTemporaryString_` (json_lattice_writer_output.cpp 81-90). -/
def hashValue (key value : Str) : Str := quote key ++ [58] ++ quote value

/-- Elements with commas between (json_lattice_writer_output.cpp 60-75, 164-184). -/
def commas : List Str → Str
  | [] => []
  | [a] => a
  | a :: l => a ++ [44] ++ commas l

/-- An annotation item (json_lattice_writer_output.cpp 47-79). -/
def hash (category text : Str) (values : List (Str × Str)) : Str :=
  [123] ++ hashValue [99, 97, 116, 101, 103, 111, 114, 121] category ++ [44] ++ hashValue [116, 101, 120, 116] text ++ [44] ++
    ([34, 118, 97, 108, 117, 101, 115, 34, 32, 58, 32, 123] ++ commas (values.map (fun p => hashValue p.1 p.2)) ++ [125]) ++ [125]

/-- `numberOfMainElements_`, the stream, `currentArrayPointer_`, `arraysStack_` (the top first). -/
structure Json where
  count : Nat
  out : Str
  cur : Option (List Str)
  stack : List (List Str)

/-- `printElementToMainOutput_` (json_lattice_writer_output.cpp 143-151). -/
def Json.printMain (s : Json) (t : Str) : Json :=
  { s with out := s.out ++ (if s.count ≠ 0 then [44] ++ t else t), count := s.count + 1 }

/-- `pushTextElementToOutput_` (json_lattice_writer_output.cpp 39-45). -/
def Json.push (s : Json) (t : Str) : Json :=
  match s.cur with
  | some a => { s with cur := some (a ++ [t]) }
  | none => s.printMain t

/-- `openNewSubArray` (json_lattice_writer_output.cpp 92-98). -/
def Json.openArray (s : Json) : Json :=
  match s.cur with
  | some a => { s with cur := some [], stack := a :: s.stack }
  | none => { s with cur := some [] }

/-- `printCurrentArrayToStringWithFlatten_` (json_lattice_writer_output.cpp 153-184, 206-214). -/
def arrayText (flatten : Bool) (a : List Str) : Str :=
  match flatten, a with
  | true, [x] => x
  | _, a => if a = [] then [] else [91] ++ commas a ++ [93]

/-- `closeSubArray_` (json_lattice_writer_output.cpp 108-141). -/
def Json.closeArray (flatten : Bool) (s : Json) : Json :=
  match s.cur, s.stack with
  | none, _ => s
  | some a, p :: st =>
    { s with cur := some (if a ≠ [] ∧ arrayText flatten a ≠ [] then p ++ [arrayText flatten a] else p), stack := st }
  | some a, [] => if a ≠ [] then { (s.printMain (arrayText flatten a)) with cur := none } else { s with cur := none }

/-- json_lattice_writer_output_iterator.cpp 17-40. -/
def Json.step (s : Json) : Ev Str → Json
  | .openGroup _ => s.openArray
  | .closeGroup _ => s.closeArray false
  | .openAlt => s.openArray
  | .closeAlt => s.closeArray true
  | .put t => s.push t

/-- All calls, with the brackets of the constructor and the destructor. -/
def json (evs : List (Ev Str)) : Str :=
  (evs.foldl Json.step ⟨0, [91], none, []⟩).out ++ [93]

end Verif.IterWriter
