import Verif.Basic
import Verif.Utf8.Model

/-!
The bracketing writer: `formats/bracketing/bracketing-writer/bracketing_lattice_writer.{hpp,cpp}`, `bracket_printer.hpp`,
`edge_data.hpp`, `edge_print_data.hpp`.
-/
set_option linter.unusedVariables false
namespace Verif.Bracket
open Verif

/-! ### Writing brackets into the text -/

/-- An opening and a closing bracket (`printedElements` of edge_print_data.hpp 16). -/
abbrev Label := Str × Str

/-- The labels of the edges from one place to another, those outside first (`vprinted`, bracketing_lattice_writer.hpp 192-206). -/
abbrev Cells := Nat → Nat → List Label

/-- `symbolLength(latticeText, i)` (common/string_helpers.cpp 6-22); after the end there is a NUL. -/
def symLen (text : Str) (i : Nat) : Nat := Utf8.symbolLength (text.getD i 0)

/-- `for (size_t i = 0; i < latticeSize; i += symbolLength(latticeText, i))` (bracketing_lattice_writer.hpp 188, 214), where
`latticeSize` is the length and 1. -/
def positionsFrom (text : Str) : Nat → Nat → List Nat
  | 0, _ => []
  | f + 1, i => if i < text.length + 1 then i :: positionsFrom text f (i + symLen text i) else []

def positions (text : Str) : List Nat := positionsFrom text (text.length + 1) 0

/-- `printedBrackets[i][j]` for `i < j` (bracketing_lattice_writer.hpp 188-212): opening brackets; only at places where a symbol begins. -/
def opens (c : Cells) (text : Str) (i j : Nat) : Str :=
  if i ∈ positions text ∧ j ∈ positions text then (c i j).foldl (fun s l => s ++ l.1) [] else []

/-- `printedBrackets[j][i]` for `i < j`: closing brackets, the last one first. -/
def closes (c : Cells) (text : Str) (i j : Nat) : Str :=
  if i ∈ positions text ∧ j ∈ positions text then (c i j).foldl (fun s l => l.2 ++ s) [] else []

/-- `printedBrackets`. -/
def printed (c : Cells) (text : Str) (i j : Nat) : Str := if i < j then opens c text i j else closes c text j i

/-- `for (j = ((i + latticeSize) - 1) % latticeSize; j != i; j = ((j + latticeSize) - 1) % latticeSize)`
(bracketing_lattice_writer.hpp 215-219). -/
def orderFrom (n i : Nat) : Nat → Nat → List Nat
  | 0, _ => []
  | f + 1, j => if j = i then [] else j :: orderFrom n i f (((j + n) - 1) % n)

def order (n i : Nat) : List Nat := orderFrom n i n (((i + n) - 1) % n)

/-- The output (bracketing_lattice_writer.hpp 214-223). -/
def write (c : Cells) (text : Str) : Str :=
  (positions text).flatMap (fun i =>
    (order (text.length + 1) i).flatMap (printed c text i) ++ (text.drop i).take (symLen text i))

/-! ### The order of brackets at the same places -/

/-- `EdgePrintData` (edge_print_data.hpp 13-43): the edge, the edge it was made from, what is printed. -/
structure Epd where
  source : Option Nat
  parent : Option Nat
  label : Label
deriving DecidableEq, Repr

/-- `vprinted[a].swap(vprinted[b])` (edge_print_data.hpp 28-37). -/
def swapAt (l : List Epd) (a b : Nat) : List Epd :=
  match l[a]?, l[b]? with
  | some x, some y => (l.set a y).set b x
  | _, _ => l

/-- `vprinted[a].source && vprinted[b].parent && *source == *parent`. -/
def madeFrom (l : List Epd) (a b : Nat) : Bool :=
  match l[a]?.bind Epd.source, l[b]?.bind Epd.parent with
  | some s, some p => s = p
  | _, _ => false

/-- The two loops (bracketing_lattice_writer.hpp 193-206), one comparison or one step of the outer loop at a time; `none` if they have
not ended.  After a swap `a = 0; b = 1` is followed by `++b`. -/
def arrange : Nat → List Epd → Nat → Nat → Option (List Epd)
  | 0, _, _, _ => none
  | f + 1, l, a, b =>
    if l.length ≤ a then some l
    else if l.length ≤ b then arrange f l (a + 1) (a + 2)
    else if madeFrom l a b then arrange f (swapAt l a b) 0 2
    else arrange f l a (b + 1)

/-! ### Edges in a set -/

/-- The fields that `EdgeData` compares (edge_data.hpp 14-23), as numbers that are ordered as the strings, sets and maps are. -/
structure Keys where
  category : Nat
  text : Nat
  score : Nat
  tags : Nat
  av : Nat
  role : Nat
  begin_ : Nat
  end_ : Nat
deriving DecidableEq, Repr

/-- `EdgeData::operator<` (edge_data.hpp 77-86). -/
def Keys.less (x y : Keys) : Bool :=
  x.category < y.category || x.text < y.text || x.score < y.score || x.tags < y.tags || x.av < y.av || x.role < y.role ||
    x.begin_ < y.begin_ || x.end_ < y.end_

/-! ### Patterns -/

variable {D : Type} [DecidableEq D]

/-- `EdgeData` (edge_data.hpp 14-23): tags and attributes are in order, without repetition. -/
structure Edge (D : Type) where
  tags : List Str
  category : Str
  text : Str
  av : List (Str × Str)
  score : D
  role : Str

/-- Separators and how a score is printed. -/
structure Style (D : Type) where
  tagSep : Str
  avPairsSep : Str
  avSep : Str
  zero : D
  show_ : D → Str

/-- `close_` (bracket_printer.hpp 72-84). -/
def close (b : Byte) : Byte :=
  if b = 40 then 41 else if b = 41 then 40 else if b = 91 then 93 else if b = 93 then 91
  else if b = 123 then 125 else if b = 125 then 123 else if b = 60 then 62 else if b = 62 then 60 else b

/-- `pattern.find(c, from)`. -/
def find (s : Str) (c : Byte) (start : Nat) : Option Nat := ((s.drop start).idxOf? c).map (· + start)

/-- `map[key]`: the value, which is put into the map if there is none. -/
def lookup (key : Str) (m : List (Str × Str)) : Str := ((m.find? (fun p => p.1 = key)).map Prod.snd).getD []

/-- Order of strings. -/
def below : Str → Str → Bool
  | _, [] => false
  | [], _ :: _ => true
  | a :: s, b :: t => a < b || (a = b && below s t)

/-- `map[key] = value`. -/
def insert (key value : Str) : List (Str × Str) → List (Str × Str)
  | [] => [(key, value)]
  | p :: m => if p.1 = key then (key, value) :: m else if below key p.1 then (key, value) :: p :: m else p :: insert key value m

/-- Adding words to a stream that begins a separator only if something is in it. -/
def joined (sep : Str) (l : List Str) : Str := l.foldl (fun s a => (if s = [] then s else s ++ sep) ++ a) []

/-- What is known while a pattern is printed: the stream, the attributes of the edge, the fields used (`thisEdgeData`), separator and
pattern for the list. -/
structure St (D : Type) where
  out : Str
  av : List (Str × Str)
  used : Edge D
  sep : Str
  sub : Str

/-- One character or directive of the pattern (bracket_printer.hpp 101-220): the new state and the next place.  `pattern[to + 1]` with
`to` = `npos` is `pattern[0]`; `npos + 2` is 1. -/
def step (st : Style D) (d : Edge D) (p : Str) (s : St D) (i : Nat) : St D × Nat :=
  if p.getD i 0 = 37 ∧ i + 1 < p.length then
    let c := p.getD (i + 1) 0
    let b := p.getD (i + 2) 0
    if c = 84 then ({ s with out := s.out ++ joined st.tagSep d.tags, used := { s.used with tags := d.tags } }, i + 2)
    else if c = 99 then ({ s with out := s.out ++ d.category, used := { s.used with category := d.category } }, i + 2)
    else if c = 116 then ({ s with out := s.out ++ d.text, used := { s.used with text := d.text } }, i + 2)
    else if c = 97 then
      if i + 2 < p.length then
        match find p (close b) (i + 3) with
        | some to =>
          let a := (p.drop (i + 3)).take (to - (i + 3))
          let v := lookup a s.av
          ({ s with out := s.out ++ v, av := insert a v s.av, used := { s.used with av := insert a v s.used.av } }, to + 1)
        | none => ({ s with out := s.out ++ [37, 97] }, i + 2)
      else ({ s with out := s.out ++ [37, 97] }, i + 2)
    else if c = 65 then
      let t := joined st.avPairsSep (s.av.map (fun q => q.1 ++ st.avSep ++ q.2))
      ({ s with out := s.out ++ t, used := { s.used with av := s.av } }, i + 2)
    else if c = 115 then ({ s with out := s.out ++ st.show_ d.score, used := { s.used with score := d.score } }, i + 2)
    else if c = 42 then
      if i + 2 < p.length then
        match find p (close b) (i + 3) with
        | some to =>
          if p.getD (to + 1) 0 = b then
            match find p (close b) (to + 2) with
            | some to2 =>
              let sep := (p.drop (i + 3)).take (to - (i + 3))
              let sub := (p.drop (to + 2)).take (to2 - (to + 2))
              ({ s with out := s.out ++ [37, 42, 42, 42, 42, 42], sep := sep, sub := sub }, to2 + 1)
            | none => ({ s with out := s.out ++ [37, 42] }, i + 2)
          else ({ s with out := s.out ++ [37, 42] }, i + 2)
        | none =>
          if p.getD 0 0 = b then
            match find p (close b) 1 with
            | some to2 =>
              ({ s with out := s.out ++ [37, 42, 42, 42, 42, 42], sep := p.drop (i + 3), sub := (p.drop 1).take (to2 - 1) }, to2 + 1)
            | none => ({ s with out := s.out ++ [37, 42] }, i + 2)
          else ({ s with out := s.out ++ [37, 42] }, i + 2)
      else ({ s with out := s.out ++ [37, 42] }, i + 2)
    else if c = 114 then ({ s with out := s.out ++ d.role, used := { s.used with role := d.role } }, i + 2)
    else ({ s with out := s.out ++ [37] }, i + 1)
  else ({ s with out := s.out ++ [p.getD i 0] }, i + 1)

/-- `while (i < pattern.length())`; `none` if it has not ended. -/
def expand (st : Style D) (d : Edge D) (p : Str) : Nat → St D → Nat → Option (St D)
  | 0, _, _ => none
  | f + 1, s, i => if i < p.length then expand st d p f (step st d p s i).1 (step st d p s i).2 else some s

/-- All patterns (bracket_printer.hpp 98-224): the printed elements and the state in the end; each pattern has a new stream. -/
def expandAll (st : Style D) (d : Edge D) (f : Nat) : List Str → St D → Option (List Str × St D)
  | [], s => some ([], s)
  | p :: ps, s => do
    let s ← expand st d p f { s with out := [] } 0
    let (l, s') ← expandAll st d f ps s
    some (s.out :: l, s')

/-- Does another edge agree in the fields used (bracket_printer.hpp 227-255)?  The role is not compared. -/
def agrees (st : Style D) (u e : Edge D) : Bool :=
  (u.category = [] || e.category = u.category) && (u.text = [] || e.text = u.text) && (u.tags = [] || e.tags = u.tags) &&
    (u.score = st.zero || e.score = u.score) && u.av.all (fun q => lookup q.1 e.av = q.2)

/-- `s.find("%*****")` and `s.replace(found, 6, t)` (bracket_printer.hpp 275-280). -/
def replaceStar (t : Str) : Str → Str
  | [] => []
  | b :: s => if [37, 42, 42, 42, 42, 42].isPrefixOf (b :: s) then t ++ (b :: s).drop 6 else b :: replaceStar t s

/-- No fields used yet. -/
def noFields (st : Style D) : Edge D := ⟨[], [], [], [], st.zero, []⟩

/-- The elements of one edge before the list is put in. -/
def printEdge (st : Style D) (f : Nat) (ps : List Str) (d : Edge D) : Option (List Str × St D) :=
  expandAll st d f ps ⟨[], d.av, noFields st, [], []⟩

/-- `print_` (bracket_printer.hpp 90-286) for vectors: the elements of each edge.  `k` is the depth of the patterns in patterns. -/
def print (st : Style D) (f : Nat) : Nat → List Str → List (Edge D) → Option (List (List Str))
  | 0, _, _ => none
  | k + 1, ps, es =>
    es.mapM (fun d => do
      let (l, s) ← printEdge st f ps d
      if s.sub = [] then some l
      else do
        let r ← print st f k [s.sub] (es.filter (agrees st s.used))
        some (l.map (replaceStar (joined s.sep (r.map (fun x => x.headD []))))))

end Verif.Bracket
