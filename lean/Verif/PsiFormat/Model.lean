import Verif.Basic
import Verif.Quoter.Model

/-!
Rows of the PSI format: `formats/psi/psi_writer/psi_lattice_writer.cpp` writes them,
`formats/psi/psi_reader/psi_lattice_reader.{hpp,cpp}` reads them with Boost.Spirit grammars.
-/
set_option linter.unusedVariables false
namespace Verif.PsiFormat
open Verif

/-! ### What is in a row -/

/-- An edge of a partition: its number in the file (`none`: an edge that is not written) and its role (empty: none). -/
structure Sub where
  number : Option Nat
  role : Str
deriving DecidableEq, Repr

/-- A partition. -/
structure Part (D : Type) where
  subs : List Sub
  tags : List Str
  score : D
deriving DecidableEq, Repr

/-- The beginning of an edge. -/
inductive Source
  | loose (n : Nat) | char (n : Nat)
deriving DecidableEq, Repr

/-- The end of an edge: a loose vertex, a place in the text (after a loose beginning) or a length. -/
inductive Target
  | loose (n : Nat) | char (n : Nat) | length (n : Nat)
deriving DecidableEq, Repr

/-- An edge as `printEdge` (psi_lattice_writer.cpp 89-398) sees it.  `parts` is `none` if the partition is the default one, which is
not written (l. 314-388). -/
structure Row (D : Type) where
  ordinal : Nat
  source : Source
  target : Target
  text : Str
  tags : List Str
  annotText : Str
  category : Str
  score : D
  av : List (Str × Str)
  parts : Option (List (Part D))

/-- Scores: how they are printed and read (`operator<<` of `double` and `qi::double_`), and the score that is not printed. -/
structure Num (D : Type) where
  zero : D
  print : D → Str
  read : Str → Option (D × Str)

variable {D : Type} [DecidableEq D]

/-! ### Writing -/

/-- Decimal digits; `fuel` is at least the number. -/
def decF : Nat → Nat → Str
  | 0, n => [UInt8.ofNat (48 + n % 10)]
  | k + 1, n => if n < 10 then [UInt8.ofNat (48 + n % 10)] else decF k (n / 10) ++ [UInt8.ofNat (48 + n % 10)]

/-- `<<` of a number. -/
def dec (n : Nat) : Str := decF n n

/-- `std::right << std::setfill('0') << std::setw(w) << n`. -/
def dec0 (w n : Nat) : Str := List.replicate (w - (dec n).length) 48 ++ dec n

/-- `quoter.escape`. -/
def esc (s : Str) : Str := Quoter.escape Quoter.psiQuotations s

/-- `∅` -/
def emptySign : Str := [0xe2, 0x88, 0x85]

/-- Words with a separator between them. -/
def join (sep : Byte) : List Str → Str
  | [] => []
  | [a] => a
  | a :: b :: l => a ++ sep :: join sep (b :: l)

/-- Beginning (psi_lattice_writer.cpp 192-199). -/
def Source.cell : Source → Str
  | .loose n => 64 :: dec n
  | .char n => dec0 4 n

/-- Length (psi_lattice_writer.cpp 203-214). -/
def Target.cell : Target → Str
  | .loose n => 42 :: 64 :: dec n
  | .char n => 42 :: dec0 4 n
  | .length n => dec0 2 n

/-- Edge text (psi_lattice_writer.cpp 238-265), if it is not shortened (see `shorten`). -/
def textCell (text : Str) : Str := if esc text = [] then emptySign else esc text

/-- Long text that is already in the file is shortened (psi_lattice_writer.cpp 243-253): the first six characters, three dots and the
last three.  `w` is the width of the column; characters are bytes here, as in ASCII text. -/
def shorten (w : Nat) (text : Str) : Str :=
  let t := esc text
  if t.length = 0 then emptySign
  else if t.length > w then t.take (w - 7) ++ [46, 46, 46] ++ t.drop (t.length - 3)
  else t

/-- One edge of a partition (psi_lattice_writer.cpp 340-366). -/
def Sub.str (s : Sub) : Str :=
  match s.number with
  | none => []
  | some n => dec n ++ (if s.role = [] then [] else 36 :: esc s.role ++ [36])

/-- A partition (psi_lattice_writer.cpp 321-388); `tags` and `score` are those of the edge. -/
def Part.str (num : Num D) (tags : List Str) (score : D) (p : Part D) : Str :=
  join 45 (p.subs.map Sub.str) ++ (if p.tags = tags then [] else 40 :: join 44 p.tags ++ [41]) ++
    (if p.score = score then [] else 60 :: num.print p.score ++ [62])

/-- `avStr` (psi_lattice_writer.cpp 297-306). -/
def avStr (av : List (Str × Str)) : Str := av.flatMap (fun p => 44 :: p.1 ++ 61 :: p.2)

/-- The last cell (psi_lattice_writer.cpp 284-392). -/
def Row.annotCell (num : Num D) (r : Row D) : Str :=
  esc r.category ++ (if r.score = num.zero then [] else 60 :: num.print r.score ++ [62]) ++ esc (avStr r.av) ++
    (match r.parts with
      | none => []
      | some ps => 91 :: join 44 (ps.map (Part.str num r.tags r.score)) ++ [93])

/-- The cells of a row (psi_lattice_writer.cpp 184-397). -/
def Row.cells (num : Num D) (r : Row D) : List Str :=
  [dec0 2 r.ordinal, r.source.cell, r.target.cell, textCell r.text, esc (join 44 r.tags), esc r.annotText, r.annotCell num]

/-- `printTableRow_` (common/aligning_writer_worker.cpp 27-36, 55-70): cells, spaces up to the alignment, one more space; the last
cell without them.  `width` is `utf8::distance`. -/
def alignCells (width : Str → Nat) : List Nat → Nat → List Str → Str
  | _, _, [] => []
  | _, _, [c] => c
  | as, pos, c :: d :: l =>
    c ++ List.replicate (as.headD 0 - (pos + width c)) 32 ++
      32 :: alignCells width as.tail (max (as.headD 0) (pos + width c) + 1) (d :: l)

/-- The alignments (psi_lattice_writer.cpp 59). -/
def alignments : List Nat := [2, 7, 13, 26, 48, 60]

/-- A line of the file. -/
def Row.line (num : Num D) (width : Str → Nat) (r : Row D) : Str := alignCells width alignments 0 (r.cells num)

/-! ### Reading

Grammars of Boost.Spirit: a parser takes characters from the front or fails; `+p` and `*p` take as many as they can and never give
back; `-p` never fails. -/

/-- `+(qi::char_ - …)` for the characters that satisfy `p`. -/
def many1 (p : Byte → Bool) (s : Str) : Option (Str × Str) :=
  match s.takeWhile p with
  | [] => none
  | a :: l => some (a :: l, s.dropWhile p)

/-- `qi::space`. -/
def isSpace (b : Byte) : Bool := b = 32 || (9 ≤ b && b ≤ 13)

/-- A literal character. -/
def lit (c : Byte) : Str → Option Str
  | [] => none
  | b :: s => if b = c then some s else none

def isDigit (b : Byte) : Bool := 48 ≤ b && b ≤ 57

/-- Value of digits. -/
def value (s : Str) : Nat := s.foldl (fun v b => v * 10 + (b.toNat - 48)) 0

/-- `qi::int_`: an optional sign and digits; fails outside of `int`. -/
def int (s : Str) : Option (Int × Str) :=
  match s with
  | 45 :: t => (many1 isDigit t).bind (fun r => if value r.1 ≤ 2147483648 then some (-(value r.1 : Int), r.2) else none)
  | 43 :: t => (many1 isDigit t).bind (fun r => if value r.1 ≤ 2147483647 then some ((value r.1 : Int), r.2) else none)
  | t => (many1 isDigit t).bind (fun r => if value r.1 ≤ 2147483647 then some ((value r.1 : Int), r.2) else none)

/-- `-(qi::lit(c)[…= true])`: is it there? -/
def flag (c : Byte) (s : Str) : Bool × Str :=
  match lit c s with
  | none => (false, s)
  | some t => (true, t)

/-- `p % c` (after the first): as long as `c` and `p` follow.  `n` is at least the length. -/
def sepRest {α : Type} (p : Str → Option (α × Str)) (c : Byte) : Nat → Str → List α × Str
  | 0, s => ([], s)
  | n + 1, s =>
    match (lit c s).bind p with
    | none => ([], s)
    | some (a, t) => ((a :: (sepRest p c n t).1), (sepRest p c n t).2)

/-- `p % c`. -/
def sepBy {α : Type} (p : Str → Option (α × Str)) (c : Byte) (s : Str) : Option (List α × Str) :=
  (p s).map (fun r => (r.1 :: (sepRest p c s.length r.2).1, (sepRest p c s.length r.2).2))

/-- `score` (psi_lattice_reader.hpp 150-152): the score given, or 0; the position behind it. -/
def scoreOpt (num : Num D) (s : Str) : D × Str :=
  match (lit 60 s).bind num.read with
  | none => (num.zero, s)
  | some (d, t) => match lit 62 t with
    | none => (d, s)
    | some u => (d, u)

/-- `annotation` (psi_lattice_reader.hpp 144-148): category, score, attributes and partitions.  A string attribute keeps what was put
into it before the optional part failed. -/
def annotation (num : Num D) (s : Str) : Option (Str × D × Str × Str) :=
  (many1 (fun b => b ≠ 32 && b ≠ 44 && b ≠ 91 && b ≠ 60) s).map (fun (cat, s) =>
    let (score, s) := scoreOpt num s
    let (av, s) := match (lit 44 s).bind (many1 (fun b => b ≠ 91)) with
      | none => ([], s)
      | some r => r
    let parts := match lit 91 s with
      | none => []
      | some t => match lit 93 (t.dropWhile (fun b => b ≠ 93)) with
        | none => 91 :: t.takeWhile (fun b => b ≠ 93)
        | some _ => 91 :: t.takeWhile (fun b => b ≠ 93) ++ [93]
    (cat, score, av, parts))

/-- `PsiLRItem` (psi_lattice_reader.hpp 74-86). -/
structure Item (D : Type) where
  ordinal : Int
  beginningLoose : Bool
  beginning : Int
  lengthPoint : Bool
  lengthLoose : Bool
  length : Int
  text : Str
  tags : List Str
  annotText : Str
  category : Str
  score : D
  av : Str
  partitions : Str
deriving DecidableEq, Repr

def notSpace (b : Byte) : Bool := b ≠ 32

/-- `-(+(qi::char_ - ' ') >> whitespaces)`: what is put into the attribute, and where it goes on. -/
def annotTextOpt (s : Str) : Str × Str :=
  match many1 notSpace s with
  | none => ([], s)
  | some (a, t) => match many1 isSpace t with
    | none => (a, s)
    | some (_, u) => (a, u)

/-- `start` of `PsiLRGrammar` (psi_lattice_reader.hpp 111-127); what is left of the line is not looked at. -/
def parseRow (num : Num D) (s : Str) : Option (Item D) := do
  let (ordinal, s) ← int s
  let (_, s) ← many1 isSpace s
  let (bl, s) := flag 64 s
  let (beginning, s) ← int s
  let (_, s) ← many1 isSpace s
  let (lp, s) := flag 42 s
  let (ll, s) := flag 64 s
  let (length, s) ← int s
  let (_, s) ← many1 isSpace s
  let (text, s) ← many1 notSpace s
  let (_, s) ← many1 isSpace s
  let (tags, s) ← sepBy (many1 (fun b => b ≠ 32 && b ≠ 44)) 44 s
  let (_, s) ← many1 isSpace s
  let (annotText, s) := annotTextOpt s
  let (category, score, av, parts) ← annotation num s
  some ⟨ordinal, bl, beginning, lp, ll, length, text, tags, annotText, category, score, av, parts⟩

/-- `+(qi::char_ - ' ') % whitespaces` (psi_lattice_reader.hpp 42-43): the number of strings after the first. -/
def seqRest : Nat → Str → Nat
  | 0, _ => 0
  | n + 1, s =>
    match (many1 isSpace s).bind (fun r => many1 notSpace r.2) with
    | none => 0
    | some (_, t) => seqRest n t + 1

/-- The number of strings; 0 if it fails. -/
def seqCount (s : Str) : Nat :=
  match many1 notSpace s with
  | none => 0
  | some (_, t) => seqRest s.length t + 1

/-- `quoter.unescape`. -/
def unesc (s : Str) : Option Str := Quoter.unescape Quoter.psiQuotations s

/-- `PsiLRItem::unescape` (psi_lattice_reader.hpp 88-95, 57-61).  The loop over the tags unescapes copies of them. -/
def Item.unescape (i : Item D) : Option (Item D) := do
  let text ← unesc i.text
  let _ ← i.tags.mapM unesc
  let annotText ← unesc i.annotText
  let category ← unesc i.category
  let av ← unesc i.av
  let partitions ← unesc i.partitions
  some { i with text, annotText, category, av, partitions }

/-- The attributes (psi_lattice_reader.hpp 160-217, psi_lattice_reader.cpp 193-211): pairs that cannot be read are left out. -/
def readPair (s : Str) : Option (Str × Str) := do
  let (a, s) ← many1 (fun b => b ≠ 44 && b ≠ 61) s
  let s ← lit 61 s
  let (v, _) ← many1 (fun b => b ≠ 44 && b ≠ 61) s
  some (a, v)

def readAv (s : Str) : List (Str × Str) :=
  match sepBy (many1 (fun b => b ≠ 44)) 44 s with
  | none => []
  | some (l, _) => l.filterMap readPair

/-- `partition` of `PsiLRPartitionsGrammar` (psi_lattice_reader.hpp 229-241): the text of one partition.  A failed optional part
leaves its characters in the attribute. -/
def partText (s : Str) : Option (Str × Str) :=
  (many1 (fun b => b ≠ 40 && b ≠ 60 && b ≠ 93 && b ≠ 44) s).map (fun (a, s) =>
    let (x, s) := bracketed 40 41 s
    let (y, s) := bracketed 60 62 s
    (a ++ x ++ y, s))
where
  /-- `-(qi::char_(o) >> +(qi::char_ - c) >> qi::char_(c))` -/
  bracketed (o c : Byte) (s : Str) : Str × Str :=
    match lit o s with
    | none => ([], s)
    | some t => match many1 (fun b => b ≠ c) t with
      | none => ([o], s)
      | some (a, u) => match lit c u with
        | none => (o :: a, s)
        | some v => (o :: a ++ [c], v)

/-- `start` of `PsiLRPartitionsGrammar` (psi_lattice_reader.hpp 224-227). -/
def partTexts (s : Str) : Option (List Str) := do
  let s ← lit 91 s
  let (l, s) ← sepBy partText 44 s
  let _ ← lit 93 s
  some l

/-- `edge` of `PsiLRPartitionGrammar` (psi_lattice_reader.hpp 292-301): the number (0 if there is none) and the role. -/
def readSub (s : Str) : Option ((Int × Str) × Str) :=
  let (n, s) := match int s with
    | none => (0, s)
    | some r => r
  match lit 36 s with
  | none => some ((n, []), s)
  | some t => match many1 (fun b => b ≠ 36) t with
    | none => some ((n, []), s)
    | some (a, u) => match lit 36 u with
      | none => some ((n, a), s)
      | some v => some ((n, a), v)

/-- `tags` (psi_lattice_reader.hpp 303-304). -/
def readTags (s : Str) : List Str × Str :=
  match (lit 40 s).bind (sepBy (many1 (fun b => b ≠ 41 && b ≠ 32 && b ≠ 44)) 44) with
  | none => ([], s)
  | some (l, t) => match lit 41 t with
    | none => (l, s)
    | some u => (l, u)

/-- `score` (psi_lattice_reader.hpp 306-307). -/
def readScore (num : Num D) (s : Str) : Option D :=
  match (lit 60 s).bind num.read with
  | none => none
  | some (d, t) => (lit 62 t).map (fun _ => d)

/-- A partition as it is read (psi_lattice_reader.cpp 250-301): numbers below 1 stand for edges that are not written; the tags are those
of the edge if there are none, and so is the score. -/
def readPart (num : Num D) (tags : List Str) (score : D) (s : Str) : Part D :=
  match sepBy readSub 45 s with
  | none => ⟨[], tags, score⟩
  | some (l, s) =>
    ⟨l.map (fun (n, role) => ⟨if n < 1 then none else some n.toNat, role⟩),
      if (readTags s).1 = [] then tags else (readTags s).1, (readScore num (readTags s).2).getD score⟩

/-- What the reader makes of the partitions (psi_lattice_reader.cpp 221-315). -/
inductive Parts (D : Type)
  /-- nothing written: symbols of the text -/
  | default
  /-- not readable: one partition without edges -/
  | unreadable
  | list (l : List (Part D))
deriving DecidableEq, Repr

def readParts (num : Num D) (tags : List Str) (score : D) (s : Str) : Parts D :=
  if s = [] then .default
  else match partTexts s with
    | none => .unreadable
    | some l => .list (l.map (readPart num tags score))

/-- A row as the reader sees it. -/
structure Seen (D : Type) where
  ordinal : Int
  source : Source
  target : Target
  text : Str
  tags : List Str
  annotText : Str
  category : Str
  score : D
  av : List (Str × Str)
  parts : Parts D
deriving DecidableEq, Repr

/-- The beginning (psi_lattice_reader.cpp 150-161).  Numbers below 0 are not looked at: the writer writes none. -/
def Item.source (i : Item D) : Source := if i.beginningLoose then .loose i.beginning.toNat else .char i.beginning.toNat

/-- The end (psi_lattice_reader.cpp 166-190); `none` is the exception. -/
def Item.target (i : Item D) : Option Target :=
  if i.lengthPoint then some (if i.lengthLoose then .loose i.length.toNat else .char i.length.toNat)
  else if i.lengthLoose then none
  else some (.length i.length.toNat)

/-- A row as it is read (psi_lattice_reader.cpp 61-315, without what is done with the lattice); `none` is an exception: syntax error or
wrong escape sequence. -/
def readRow (num : Num D) (line : Str) : Option (Seen D) := do
  let item ← parseRow num line
  let item ← (if seqCount line ≠ 7 then { item with annotText := [] } else item).unescape
  let target ← item.target
  some ⟨item.ordinal, item.source, target, item.text, item.tags, item.annotText, item.category, item.score, readAv item.av,
    readParts num item.tags item.score item.partitions⟩

/-! ### Files -/

/-- The cells of the header (psi_lattice_writer.cpp 62-69). -/
def header : List Str :=
  [[35, 35], [98, 101, 103, 46], [108, 101, 110, 46], [116, 101, 120, 116], [116, 97, 103, 115],
    [97, 110, 110, 111, 116, 46, 116, 101, 120, 116], [97, 110, 110, 111, 116, 97, 116, 105, 111, 110, 115]]

/-- The file (psi_lattice_writer.cpp 52-86): header and rows, a newline after each. -/
def writeFile (num : Num D) (width : Str → Nat) (withHeader : Bool) (rows : List (Row D)) : Str :=
  (if withHeader then alignCells width alignments 0 header ++ [10] else []) ++
    rows.flatMap (fun r => r.line num width ++ [10])

/-- `std::getline` until the end: the characters up to a newline; nothing after the last newline is no line. -/
def lines : Str → List Str
  | [] => []
  | b :: s =>
    if b = 10 then [] :: lines s
    else match lines s with
      | [] => [[b]]
      | l :: ls => (b :: l) :: ls

/-- Blank lines and comments are skipped (psi_lattice_reader.cpp 56-60). -/
def skipped (line : Str) : Bool :=
  match line.dropWhile isSpace with
  | [] => true
  | b :: _ => b = 35

/-- `doRun` (psi_lattice_reader.cpp 42-327): all rows; `none` is an exception. -/
def readFile (num : Num D) (s : Str) : Option (List (Seen D)) :=
  ((lines s).filter (fun l => !skipped l)).mapM (readRow num)

end Verif.PsiFormat
