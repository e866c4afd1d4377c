import Verif.Xml.Model
import Mathlib.Data.List.SplitOn
import Mathlib.Data.List.Chain

/-!
What the properties C89–C94 speak of, apart from the model.
-/
set_option linter.unusedVariables false

namespace Verif.Xml
open Verif Verif.Server

/-! ### Escaped characters -/

/-- The names of characters. -/
def names : List (Str × Byte) :=
  [(ascii "lt", 60), (ascii "gt", 62), (ascii "amp", 38), (ascii "apos", 39), (ascii "quot", 34),
   (ascii "#91", 91), (ascii "#93", 93), (ascii "bra", 91), (ascii "ket", 93), (ascii "bar", 124)]

/-- `Encodes s e`: `e` is a way to write `s`; each character is written as it is, unless it is `&`, or as
`&name;`. -/
inductive Encodes : Str → Str → Prop
  | nil : Encodes [] []
  | plain (c : Byte) {s e : Str} : c ≠ 38 → Encodes s e → Encodes (c :: s) (c :: e)
  | named (name : Str) (c : Byte) {s e : Str} : (name, c) ∈ names → Encodes s e →
      Encodes (c :: s) (38 :: name ++ 59 :: e)

/-- A `&` followed by something that is no name. -/
def Unknown (e : Str) : Prop :=
  ∃ t p name rest, Encodes t p ∧ e = p ++ 38 :: name ++ rest ∧ 59 ∉ name ∧ (rest = [] ∨ rest.head? = some 59) ∧
    ∀ c, (name, c) ∉ names

/-- A string that ends in a name without the semicolon. -/
def Unfinished (e : Str) : Prop :=
  ∃ t p name c, Encodes t p ∧ e = p ++ 38 :: name ∧ (name, c) ∈ names

/-- The usual way to write a string. -/
def escape (s : Str) : Str :=
  s.flatMap (fun c => if c = 38 then ascii "&amp;" else if c = 60 then ascii "&lt;"
    else if c = 62 then ascii "&gt;" else [c])

/-! ### Tokens of a line -/

/-- A tag: from `<` to the first `>`. -/
def IsTag (t : Str) : Prop := ∃ b, t = 60 :: b ++ [62] ∧ 62 ∉ b

/-- A text. -/
def IsText (t : Str) : Prop := t ≠ [] ∧ 60 ∉ t

/-- Tags and texts, no text next to another. -/
def Pieces (ts : List Str) : Prop :=
  (∀ t ∈ ts, IsTag t ∨ IsText t) ∧ ts.IsChain (fun a b => ¬(IsText a ∧ IsText b))

/-- The line is cut into the pieces; if it ends in a tag that is not closed, this tag and the text before it
are left out. -/
def Cut (line : Str) (ts : List Str) : Prop :=
  Pieces ts ∧ (ts.flatten = line ∨
    ∃ text rest, line = ts.flatten ++ text ++ 60 :: rest ∧ 60 ∉ text ∧ 62 ∉ rest ∧
      ∀ t ∈ ts.getLast?, IsTag t)

/-! ### Attributes -/

/-- `rest` follows the first place of the tag where the pattern stands. -/
def FirstAt (pat tag rest : Str) : Prop :=
  (∃ pre, tag = pre ++ pat ++ rest) ∧ ∀ pre rest', tag = pre ++ pat ++ rest' → rest'.length ≤ rest.length

/-- `v` is what stands before the quote that ends the value, `post` stands behind it: a quote preceded by a
backslash does not end the value if there is another one, nor does a quote at the beginning. -/
def Quoted (v post : Str) : Prop :=
  v ≠ [] ∧ (∀ a b, v = a ++ 34 :: b → a = [] ∨ a.getLast? = some 92) ∧ (v.getLast? ≠ some 92 ∨ 34 ∉ post)

/-- The attribute of a tag as the program takes it: the value behind the first `name="`; the empty string if
there is none. -/
def HasAttr (tag name v : Str) : Prop :=
  (∃ post, FirstAt (name ++ [61, 34]) tag (v ++ 34 :: post) ∧ Quoted v post) ∨
  (v = [] ∧ ¬∃ v' post, FirstAt (name ++ [61, 34]) tag (v' ++ 34 :: post) ∧ Quoted v' post)

/-- An attribute as it is written. -/
def attrText (x : Str × Str) : Str := x.1 ++ [61, 34] ++ x.2 ++ [34]

/-- Attributes as they are written, a space between them. -/
def attrsText : List (Str × Str) → Str
  | [] => []
  | x :: l => attrText x ++ l.flatMap (fun y => 32 :: attrText y)

/-- A name of an attribute. -/
def IsName (n : Str) : Prop := n ≠ [] ∧ ∀ c ∈ n, c ≠ 32 ∧ c ≠ 61 ∧ c ≠ 34

/-- A value that the program can read: not empty, without quotes, not ending in a backslash. -/
def IsValue (v : Str) : Prop := v ≠ [] ∧ 34 ∉ v ∧ v.getLast? ≠ some 92

/-- An attribute that may come before the attribute `n`: its name does not end in `n`, its value not in `=`. -/
def Harmless (n : Str) (x : Str × Str) : Prop :=
  IsName x.1 ∧ IsValue x.2 ∧ x.2.getLast? ≠ some 61 ∧ ∀ y, x.1 ≠ y ++ n

/-! ### Words, elements -/

/-- The words of a text: what stands between spaces and tabs. -/
def words (s : Str) : List Str := (s.splitOnP (fun c => c = 32 || c = 9)).filter (fun w => !w.isEmpty)

/-- The characters that may surround the inside of a tag. -/
def isBlank (c : Byte) : Prop := c = 32 ∨ c = 9 ∨ c = 10 ∨ c = 13

/-- What stands in a tag, without the brackets and the blanks around it. -/
def Inside (tok body : Str) : Prop :=
  body ≠ [] ∧ (∀ c ∈ body.head?, ¬isBlank c) ∧ (∀ c ∈ body.getLast?, ¬isBlank c) ∧
  ∃ l r, (∀ c ∈ l, isBlank c) ∧ (∀ c ∈ r, isBlank c) ∧ tok = 60 :: l ++ body ++ r ++ [62]

/-- A string is a name, or a name, a space and the content. -/
def Divided (s name content : Str) : Prop :=
  32 ∉ name ∧ (s = name ∧ content = [] ∨ s = name ++ 32 :: content)

/-- An opening tag, `<name content>`. -/
def Opening (tok name content : Str) : Prop :=
  ∃ body, Inside tok body ∧ body.head? ≠ some 47 ∧ body.getLast? ≠ some 47 ∧ Divided body name content

/-- A closing tag, `</name>`; what follows the name does not matter. -/
def Closing (tok name : Str) : Prop :=
  ∃ s content, Inside tok (47 :: s) ∧ s.getLast?.getD 47 ≠ 47 ∧ Divided s name content

/-- A tag that is opened and closed at once, `<name content/>`. -/
def Single (tok name content : Str) : Prop :=
  ∃ s, Inside tok (s ++ [47]) ∧ s ≠ [] ∧ s.head? ≠ some 47 ∧ Divided s name content

/-- A sequence of texts and elements; an element has a label and the value of `span`. -/
inductive Items
  | nil
  | text (t : Str) (rest : Items)
  | elem (label span : Str) (inside rest : Items)
  | single (label span : Str) (rest : Items)
deriving Repr

/-- A text and the way it is written. -/
def Decoded (unesc : Bool) (t tok : Str) : Prop := if unesc then Encodes t tok else t = tok

/-- The items are written as these tokens. -/
inductive Written (unesc : Bool) : Items → List Str → Prop
  | nil : Written unesc .nil []
  | text {t tok rest ts} : IsText tok → Decoded unesc t tok → Written unesc rest ts →
      Written unesc (.text t rest) (tok :: ts)
  | elem {tok tok' name content label span inside rest ts ts'} : Opening tok name content →
      HasAttr content (ascii "label") label → HasAttr content (ascii "span") span →
      Written unesc inside ts → Closing tok' name → Written unesc rest ts' →
      Written unesc (.elem label span inside rest) (tok :: (ts ++ tok' :: ts'))
  | single {tok name content label span rest ts} : Single tok name content →
      HasAttr content (ascii "label") label → HasAttr content (ascii "span") span →
      Written unesc rest ts → Written unesc (.single label span rest) (tok :: ts)

/-- The texts of the items. -/
def Items.texts : Items → List Str
  | .nil => []
  | .text t r => t :: r.texts
  | .elem _ _ i r => i.texts ++ r.texts
  | .single _ _ r => r.texts

/-- The number of words of the items. -/
def Items.count : Items → Nat
  | .nil => 0
  | .text t r => (words t).length + r.count
  | .elem _ _ i r => i.count + r.count
  | .single _ _ r => r.count

/-- Two texts, with a space between them unless there is one. -/
def glue (a b : Str) : Str :=
  if a = [] ∨ a.getLast? = some 32 ∨ b.head? = some 32 then a ++ b else a ++ 32 :: b

/-- The texts without the tags. -/
def Items.line (its : Items) : Str := its.texts.foldl glue []

/-- A node of at least one word, the positions of which are those of the text, from `a` up to `b`, or are given by
`span`, `i-j` or `i`. `atoi` is the function of the C library. -/
def nodeOf (label span : Str) (a b : Nat) : Option Node :=
  if span = [] then (if a < b then some ⟨a, b - 1, label⟩ else none)
  else
    match (span.splitOnP (fun c => c = 45)).filter (fun w => !w.isEmpty) with
    | [i] => (atoi i).toOption.map (fun a => ⟨a, a, label⟩)
    | [i, j] =>
      match atoi i, atoi j with
      | .ok a, .ok b => if a ≤ b ∧ b < 2147483647 then some ⟨a, b, label⟩ else none
      | _, _ => none
    | _ => none

/-- The nodes of the items, children before parents, if there is a node for each element; `p` words come
before the items. -/
def Items.nodes : Nat → Items → Option (List Node)
  | _, .nil => some []
  | p, .text t r => r.nodes (p + (words t).length)
  | p, .elem label span i r =>
    match i.nodes p, nodeOf label span p (p + i.count), r.nodes (p + i.count) with
    | some a, some n, some b => some (a ++ n :: b)
    | _, _, _ => none
  | p, .single label span r =>
    match nodeOf label span p p, r.nodes p with
    | some n, some b => some (n :: b)
    | _, _ => none

/-! ### Trees -/

/-- A sequence of words and nodes of a tree. -/
inductive Forest
  | nil
  | word (rest : Forest)
  | node (label : Str) (inside rest : Forest)
deriving Repr

/-- The number of words. -/
def Forest.width : Forest → Nat
  | .nil => 0
  | .word r => r.width + 1
  | .node _ i r => i.width + r.width

/-- The number of nodes. -/
def Forest.size : Forest → Nat
  | .nil => 0
  | .word r => r.size
  | .node _ i r => i.size + 1 + r.size

/-- The nodes with their positions, children before parents, as the tags are closed. -/
def Forest.nodes : Nat → Forest → List Node
  | _, .nil => []
  | p, .word r => r.nodes (p + 1)
  | p, .node l i r => i.nodes p ++ ⟨p, p + i.width - 1, l⟩ :: r.nodes (p + i.width)

/-- Each node has words, and no word of its own before its first child. -/
def Forest.Regular : Forest → Prop
  | .nil => True
  | .word r => r.Regular
  | .node _ i r => 0 < i.width ∧ (match i with | .word r' => r'.size = 0 | _ => True) ∧ i.Regular ∧ r.Regular

/-- The links between the nodes show the forest: the nodes with the numbers `ids` are the nodes of the forest,
have the parent `par`, and their children show what is inside of them. -/
def Shows (nodes : List Node) (l : Links) : Option Nat → List Nat → Nat → Forest → Prop
  | par, ids, p, .nil => ids = []
  | par, ids, p, .word r => Shows nodes l par ids (p + 1) r
  | par, ids, p, .node label i r =>
    ∃ id ids', ids = id :: ids' ∧ nodes[id]? = some ⟨p, p + i.width - 1, label⟩ ∧ l.parent id = par ∧
      Shows nodes l (some id) (l.children id) p i ∧ Shows nodes l par ids' (p + i.width) r

/-- The nodes are nodes of a sentence of `n` words, each of which has a node of its own. -/
def OfWords (n : Nat) (nodes : List Node) : Prop :=
  (∀ x ∈ nodes, x.first ≤ x.last ∧ x.last < n) ∧ ∀ i < n, ∃ x ∈ nodes, x.first = i ∧ x.last = i

/-- There is a node over the words from `a` up to `b`, without `b`. -/
def Spanned (nodes : List Node) (a b : Nat) : Prop := ∃ x ∈ nodes, x.first = a ∧ x.last + 1 = b

/-- The words from `a` up to `b` are split at the given points: from each point to the next one there is a node, it
is the longest one that begins there, does not go beyond `b` and is not the whole. -/
def Splits (nodes : List Node) (a b : Nat) (points : List Nat) : Prop :=
  points.head? = some a ∧ points.getLast? = some b ∧
  points.IsChain (fun p q => p < q ∧ q ≤ b ∧ (p, q) ≠ (a, b) ∧ Spanned nodes p q ∧
    ∀ r, q < r → r ≤ b → (p, r) ≠ (a, b) → ¬Spanned nodes p r)

/-- Each word is the only thing in a node, other nodes have nodes in them. -/
def Forest.Covered : Forest → Prop
  | .nil => True
  | .word _ => False
  | .node _ i r => (i = .word .nil ∨ (i ≠ .nil ∧ i.Covered)) ∧ r.Covered

/-- `At f p l i q`: in the forest `f`, which begins at the word `p`, there is a node with the label `l` that begins
at the word `q` and has `i` inside. -/
inductive At : Forest → Nat → Str → Forest → Nat → Prop
  | here {l i r p} : At (.node l i r) p l i p
  | word {r p l j q} : At r (p + 1) l j q → At (.word r) p l j q
  | inside {l i r p l' j q} : At i p l' j q → At (.node l i r) p l' j q
  | rest {l i r p l' j q} : At r (p + i.width) l' j q → At (.node l i r) p l' j q

/-- The number of words and nodes of a forest that are not inside of others. -/
def Forest.items : Forest → Nat
  | .nil => 0
  | .word r => r.items + 1
  | .node _ _ r => r.items + 1

/-- The positions between them. -/
def Forest.bounds : Nat → Forest → List Nat
  | p, .nil => [p]
  | p, .word r => p :: r.bounds (p + 1)
  | p, .node _ i r => p :: r.bounds (p + i.width)

/-- Shorter spans before longer ones, those of the same length from left to right. -/
def SpanBefore (x y : Nat × Nat) : Prop :=
  x.2 - x.1 < y.2 - y.1 ∨ (x.2 - x.1 = y.2 - y.1 ∧ x.1 < y.1)

end Verif.Xml
