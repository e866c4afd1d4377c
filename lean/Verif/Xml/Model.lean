import Verif.Server.Handler

/-!
Model of the reading of sentences with XML tags and of syntax trees,
tools/translators/bonsai/utils/binaries/XmlTree.cpp and SyntaxTree.cpp.

* `std::string::npos` is `none`.
* Exceptions, undefined behaviour and runs that do not end are distinct outcomes (`Err`).
* Messages to the standard error stream and the scores of nodes (`pcfg`, a float) are left out.  So is
  `labelCollection`, into which the labels of all the nodes added are put.
-/
set_option linter.unusedVariables false

namespace Verif.Xml
open Verif Verif.Server

/-- How a function can fail to return its value: `return false`, an exception, undefined behaviour, a run
that does not end. -/
inductive Err
  | rejected
  | exception
  | undefined
  | diverges
deriving DecidableEq, Repr

/-- `str.find(c, from)`. -/
def find (s : Str) (c : Byte) (p : Nat) : Option Nat :=
  ((s.drop p).findIdx? (fun b => b == c)).map (fun i => i + p)

/-- `str.find(pattern)`: the first place at which the pattern stands. -/
def findStr (pat : Str) : Str → Option Nat
  | [] => if pat.isEmpty then some 0 else none
  | c :: s => if pat.isPrefixOf (c :: s) then some 0 else (findStr pat s).map (fun i => i + 1)

/-- `str.substr(from, to-from)`, where `to` may be `npos`. -/
def substr (s : Str) (p : Nat) (q : Option Nat) : Str :=
  match q with
  | some q => (s.drop p).take (q - p)
  | none => s.drop p

/-- `Tokenize`, XmlTree.cpp 38-57: the delimiters are skipped, what follows up to the next one is a
token.  The rest of the string stands for the position. -/
def tokenizeLoop (d : Str) : Nat → Str → List Str
  | 0, _ => []
  | n + 1, s =>
    let t := s.dropWhile (fun c => d.contains c)
    if t.isEmpty then []
    else t.takeWhile (fun c => !d.contains c) :: tokenizeLoop d n (t.dropWhile (fun c => !d.contains c))

/-- `Tokenize`, XmlTree.cpp 38-57; each round takes at least one character. -/
def tokenize (d s : Str) : List Str := tokenizeLoop d (s.length + 1) s

/-- The `dropChars` of `Trim`. -/
def blank (c : Byte) : Bool := c == 32 || c == 9 || c == 10 || c == 13

/-- `Trim`, XmlTree.cpp 59-64. -/
def trim (s : Str) : Str := ((s.reverse.dropWhile blank).reverse).dropWhile blank

/-- The loop of `ParseXmlTagAttribute`, XmlTree.cpp 78-81: while the quote is preceded by a backslash and
there is another one, take the other one. -/
def attrEnd (tag : Str) : Nat → Nat → Nat
  | 0, e => e
  | n + 1, e =>
    if tag[e - 1]? = some 92 then
      match find tag 34 (e + 1) with
      | some e' => attrEnd tag n e'
      | none => e
    else e

/-- `ParseXmlTagAttribute`, XmlTree.cpp 66-83. -/
def attrValue (tag name : Str) : Str :=
  let tagOpen := name ++ [61, 34]
  match findStr tagOpen tag with
  | none => []
  | some i =>
    let start := i + tagOpen.length
    match find tag 34 (start + 1) with
    | none => []
    | some e => substr tag start (some (attrEnd tag tag.length e))

/-- `TrimXml`, XmlTree.cpp 90-103. -/
def trimXml (s : Str) : Str :=
  if s.length < 2 then s
  else if s.head? = some 60 ∧ s.getLast? = some 62 then (s.drop 1).take (s.length - 2)
  else s

/-- The names of characters, XmlTree.cpp 129-148. -/
def charOf (name : Str) : Option Byte :=
  if name = ascii "lt" then some 60
  else if name = ascii "gt" then some 62
  else if name = ascii "#91" then some 91
  else if name = ascii "#93" then some 93
  else if name = ascii "bra" then some 91
  else if name = ascii "ket" then some 93
  else if name = ascii "bar" then some 124
  else if name = ascii "amp" then some 38
  else if name = ascii "apos" then some 39
  else if name = ascii "quot" then some 34
  else none

/-- The loop of `unescape`, XmlTree.cpp 124-167.  `end + 1` is 0 if `end` is `npos`.  Without fuel the
result is `none`. -/
def unescapeLoop (str : Str) : Nat → Nat → Str → Option (Except Err Str)
  | 0, _, _ => none
  | n + 1, start, s =>
    match find str 38 start with
    | none => some (.ok (s ++ str.drop start))
    | some i =>
      let e := find str 59 i
      match charOf (substr str (i + 1) e) with
      | none => some (.error .exception)
      | some c =>
        let s' := s ++ substr str start (some i) ++ [c]
        if e = some (str.length - 1) then some (.ok s')
        else unescapeLoop str n (match e with | some e => e + 1 | none => 0) s'

/-- `unescape`, XmlTree.cpp 118-168, in at most `n` rounds. -/
def unescapeIn (n : Nat) (str : Str) : Option (Except Err Str) := unescapeLoop str n 0 []

/-- `unescape`, XmlTree.cpp 118-168.  A run that is longer than the string does not end (proved:
`C89_diverges`). -/
def unescape (str : Str) : Except Err Str := (unescapeIn (str.length + 1) str).getD (.error .diverges)

/-- The loop of `TokenizeXml`, XmlTree.cpp 187-212; the rest of the string stands for the position. -/
def tokenizeXmlLoop : Nat → Str → List Str
  | 0, _ => []
  | n + 1, s =>
    if s.isEmpty then []
    else
      match find s 60 0 with
      | none => [s]
      | some l =>
        match find s 62 l with
        | none => []
        | some r =>
          (if l > 0 then [s.take l] else []) ++ [substr s l (some (r + 1))] ++ tokenizeXmlLoop n (s.drop (r + 1))

/-- `TokenizeXml`, XmlTree.cpp 178-214; each round takes at least one character. -/
def tokenizeXml (s : Str) : List Str := tokenizeXmlLoop (s.length + 1) s

/-- A node of a syntax tree: the positions of its first and last word, its label; SyntaxTree.h. -/
structure Node where
  first : Nat
  last : Nat
  label : Str
deriving DecidableEq, Repr

/-- A tag that was opened and not closed yet, XmlTree.cpp 246-247. -/
structure Opened where
  name : Str
  pos : Nat
  content : Str
deriving DecidableEq, Repr

/-- The variables of `ProcessAndStripXMLTags`, XmlTree.cpp 246-251, and the nodes of the tree in the order
in which they were added. -/
structure State where
  stack : List Opened := []
  clean : Str := []
  wordPos : Nat := 0
  nodes : List Node := []
deriving DecidableEq, Repr

/-- `atoi`: white space, a sign, digits.  The strings given to it have no `-`.  A value that is no `int` is
undefined behaviour. -/
def atoi (s : Str) : Except Err Nat :=
  let t := s.dropWhile (fun c => c == 32 || (9 ≤ c && c ≤ 13))
  let u := if t.head? = some 43 then t.drop 1 else t
  let v := (u.takeWhile (fun c => 48 ≤ c && c ≤ 57)).foldl (fun v c => v * 10 + (c.toNat - 48)) 0
  if v < 2147483648 then .ok v else .error .undefined

/-- The positions of a tag, XmlTree.cpp 338-355: the attribute `span` replaces those of the text.  The sum
`atoi(…) + 1` of line 353 is one of `int`s. -/
def spanOf (content : Str) (startPos endPos : Nat) : Except Err (Nat × Nat) :=
  let span := attrValue content (ascii "span")
  if span.isEmpty then .ok (startPos, endPos)
  else
    match tokenize [45] span with
    | [i] => do
      let a ← atoi i
      .ok (a, a + 1)
    | [i, j] => do
      let a ← atoi i
      let b ← atoi j
      if b + 1 < 2147483648 then .ok (a, b + 1) else .error .undefined
    | _ => .error .rejected

/-- A tag that is complete, XmlTree.cpp 319-380. -/
def complete (st : State) (name : Str) : Except Err State :=
  match st.stack with
  | [] => .error .rejected
  | o :: stack =>
    if o.name ≠ name then .error .rejected
    else
      match spanOf o.content o.pos st.wordPos with
      | .error e => .error e
      | .ok (a, b) =>
        if a ≥ b then .error .rejected
        else .ok { st with stack := stack,
                           nodes := st.nodes ++ [⟨a, b - 1, attrValue o.content (ascii "label")⟩] }

/-- A token that is text, XmlTree.cpp 256-270. -/
def addText (unesc : Bool) (st : State) (tok : Str) : Except Err State :=
  let base := if st.clean.length > 0 ∧ st.clean.getLast? ≠ some 32 ∧ tok.head? ≠ some 32 then st.clean ++ [32]
    else st.clean
  match (if unesc then unescape tok else .ok tok) with
  | .error e => .error e
  | .ok t => .ok { st with clean := base ++ t, wordPos := (tokenize [32, 9] (base ++ t)).length }

/-- A token that is a tag, XmlTree.cpp 273-380. -/
def addTag (st : State) (tok : Str) : Except Err State :=
  let tag := trim (trimXml tok)
  if tag.isEmpty then .error .rejected
  else
    let isUnary := tag.getLast? = some 47
    let isClosed := tag.head? = some 47
    if isClosed ∧ isUnary then .error .rejected
    else
      let tag := if isClosed then tag.drop 1 else tag
      let tag := if isUnary then tag.take (tag.length - 1) else tag
      let name := tag.takeWhile (fun c => c != 32)
      let content := (tag.dropWhile (fun c => c != 32)).drop 1
      if isClosed then complete st name
      else
        let st := { st with stack := ⟨name, st.wordPos, content⟩ :: st.stack }
        if isUnary then complete st name else .ok st

/-- The loop over the tokens, XmlTree.cpp 254-381. -/
def processLoop (unesc : Bool) : List Str → State → Except Err State
  | [], st => .ok st
  | tok :: toks, st =>
    match (if tok.head? = some 60 then addTag st tok else addText unesc st tok) with
    | .error e => .error e
    | .ok st => processLoop unesc toks st

/-- What `ProcessAndStripXMLTags` leaves behind when it returns `true`: the line, the nodes added to the
tree and the labels counted in `topLabelCollection`. -/
structure Output where
  line : Str
  nodes : List Node
  tops : List Str
deriving DecidableEq, Repr

/-- `ProcessAndStripXMLTags` with an empty tree, XmlTree.cpp 231-398. -/
def process (unesc : Bool) (line : Str) : Except Err Output :=
  if find line 60 0 = none then .ok ⟨line, [], []⟩
  else
    match processLoop unesc (tokenizeXml line) {} with
    | .error e => .error e
    | .ok st =>
      if st.stack.length > 0 then .error .rejected
      else .ok ⟨st.clean, st.nodes,
        (st.nodes.filter (fun n => n.first = 0 ∧ n.last + 1 = st.wordPos)).map (·.label)⟩

/-! ### The tree -/

/-- `m_index`: for each first position the last positions, for each of them the numbers of the nodes in the
order in which they were added.  A `std::map` is a sorted list. -/
abbrev Inner := List (Nat × List Nat)

/-- `inner[endPos].push_back(id)`. -/
def putInner (e id : Nat) : Inner → Inner
  | [] => [(e, [id])]
  | (k, v) :: m => if e < k then (e, [id]) :: (k, v) :: m
    else if e = k then (k, v ++ [id]) :: m else (k, v) :: putInner e id m

/-- `m_index[startPos][endPos].push_back(id)`. -/
def putIndex (s e id : Nat) : List (Nat × Inner) → List (Nat × Inner)
  | [] => [(s, [(e, [id])])]
  | (k, v) :: m => if s < k then (s, [(e, [id])]) :: (k, v) :: m
    else if s = k then (k, putInner e id v) :: m else (k, v) :: putIndex s e id m

/-- The index after nodes were added, SyntaxTree.cpp 48-54; the first one has the number `n`. -/
def indexFrom (n : Nat) (idx : List (Nat × Inner)) : List Node → List (Nat × Inner)
  | [] => idx
  | x :: xs => indexFrom (n + 1) (putIndex x.first x.last n idx) xs

/-- The index of a tree. -/
def index (nodes : List Node) : List (Nat × Inner) := indexFrom 0 [] nodes

/-- `GetNodes`, SyntaxTree.cpp 100-111. -/
def getNodes (idx : List (Nat × Inner)) (s e : Nat) : List Nat :=
  match idx.lookup s with
  | none => []
  | some inner => (inner.lookup e).getD []

/-- `HasNode`, SyntaxTree.cpp 95-98. -/
def hasNode (idx : List (Nat × Inner)) (s e : Nat) : Bool := decide ((getNodes idx s e).length > 0)

/-- The order in which `ConnectNodes` visits the nodes, SyntaxTree.cpp 127-137. -/
def visitOrder (idx : List (Nat × Inner)) : List Nat :=
  idx.flatMap (fun p => p.2.reverse.flatMap (fun q => q.2.reverse))

/-- What `ConnectNodes` sets: the node at the top, the parents and the children. -/
structure Links where
  top : Option Nat := none
  parent : Nat → Option Nat := fun _ => none
  children : Nat → List Nat := fun _ => []

/-- The loop up to an ancestor that reaches far enough, SyntaxTree.cpp 149-152.  `none` is the null pointer, of
which the end is asked for. -/
def climb (nodes : List Node) (parent : Nat → Option Nat) (stop : Nat) : Nat → Option Nat → Except Err Nat
  | 0, _ => .error .diverges
  | n + 1, a =>
    match a with
    | none => .error .undefined
    | some a =>
      match nodes[a]? with
      | none => .error .undefined
      | some x => if x.last < stop then climb nodes parent stop n (parent a) else .ok a

/-- `child.SetParent(p)`, `p.AddChild(child)`. -/
def link (l : Links) (p id : Nat) : Links :=
  { l with parent := fun x => if x = id then some p else l.parent x,
           children := fun x => if x = p then l.children p ++ [id] else l.children x }

/-- One node in `ConnectNodes`, SyntaxTree.cpp 138-157. -/
def connectOne (nodes : List Node) (prev : Option Nat) (id : Nat) (l : Links) : Except Err Links :=
  match prev with
  | none => .ok { l with top := some id, parent := fun x => if x = id then none else l.parent x }
  | some prev =>
    match nodes[prev]?, nodes[id]? with
    | some p, some x =>
      if p.first = x.first then .ok (link l prev id)
      else
        match climb nodes l.parent x.last (nodes.length + 1) (l.parent prev) with
        | .error e => .error e
        | .ok a => .ok (link l a id)
    | _, _ => .error .undefined

/-- The loops of `ConnectNodes`, SyntaxTree.cpp 127-160. -/
def connectLoop (nodes : List Node) : List Nat → Option Nat → Links → Except Err Links
  | [], _, l => .ok l
  | id :: ids, prev, l =>
    match connectOne nodes prev id l with
    | .error e => .error e
    | .ok l => connectLoop nodes ids (some id) l

/-- `ConnectNodes`, SyntaxTree.cpp 121-161. -/
def connect (nodes : List Node) : Except Err Links :=
  connectLoop nodes (visitOrder (index nodes)) none {}

/-- The inner loop of `Parse`, SyntaxTree.cpp 79-86, with `midPos` going down: the position covered, the
split points and `first`. -/
def splitDown (idx : List (Nat × Inner)) (startPos : Nat) : Nat → Nat × List Nat × Nat → Nat × List Nat × Nat
  | 0, st => st
  | mid + 1, (covered, points, first) =>
    if mid + 1 > covered then
      if hasNode idx (startPos + covered) (startPos + (mid + 1) - 1) then
        splitDown idx startPos mid (mid + 1, points ++ [startPos + (mid + 1)], 0)
      else splitDown idx startPos mid (covered, points, first)
    else (covered, points, first)

/-- The loop of `Parse` over one span, SyntaxTree.cpp 74-87.  `none` if the fuel does not suffice. -/
def splitLoop (idx : List (Nat × Inner)) (startPos length : Nat) : Nat → Nat × List Nat × Nat → Option (List Nat)
  | 0, _ => none
  | n + 1, (covered, points, first) =>
    if covered < length then
      splitLoop idx startPos length n (splitDown idx startPos (length - first) (covered, points, first))
    else some points

/-- The spans that `Parse` looks at, SyntaxTree.cpp 63-65. -/
def spans (size : Nat) : List (Nat × Nat) :=
  ((List.range (size + 1)).drop 2).flatMap (fun length =>
    ((List.range (size - length + 1)).map (fun startPos => (startPos, length))))

/-- `Parse`, SyntaxTree.cpp 56-93, with `fuel` rounds for each span. -/
def parse (fuel : Nat) (nodes : List Node) : Option (List (List Nat)) :=
  let idx := index nodes
  ((spans idx.length).filter (fun p => hasNode idx p.1 (p.1 + p.2 - 1))).mapM (fun p =>
    splitLoop idx p.1 p.2 fuel (0, [p.1], 1))

end Verif.Xml
