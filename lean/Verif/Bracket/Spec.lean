import Verif.Bracket.Model

/-!
What text with brackets in it is, stated without the way it is written.
-/
namespace Verif.Bracket
open Verif

/-- A piece of the output: the opening or closing bracket of an edge from `i` to `j`, or a character of the text. -/
inductive Tok
  | opn (i j : Nat) (l : Label)
  | cls (i j : Nat) (l : Label)
  | chr (b : Byte)
deriving DecidableEq

def Tok.bytes : Tok → Str
  | .opn _ _ l => l.1
  | .cls _ _ l => l.2
  | .chr b => [b]

/-- Pieces that cover the text from one place to another, where the brackets of an edge enclose exactly its text and are properly
nested. -/
inductive Nested : Nat → Nat → List Tok → Prop
  | nil (i : Nat) : Nested i i []
  | chr (i : Nat) (b : Byte) : Nested i (i + 1) [.chr b]
  | node {i j : Nat} {ts : List Tok} (l : Label) : Nested i j ts → Nested i j (.opn i j l :: ts ++ [.cls i j l])
  | append {i j k : Nat} {ts us : List Tok} : Nested i j ts → Nested j k us → Nested i k (ts ++ us)

/-- The text without the brackets. -/
def plain (ts : List Tok) : Str := ts.flatMap (fun t => match t with
  | .chr b => [b]
  | .opn _ _ _ => []
  | .cls _ _ _ => [])

/-- The labels of the opening brackets of edges from `i` to `j`, in their order. -/
def openedAt (i j : Nat) (ts : List Tok) : List Label :=
  ts.flatMap (fun t => match t with | .opn a b l => if a = i ∧ b = j then [l] else [] | _ => [])

/-- The labels of the closing brackets of edges from `i` to `j`, in their order. -/
def closedAt (i j : Nat) (ts : List Tok) : List Label :=
  ts.flatMap (fun t => match t with | .cls a b l => if a = i ∧ b = j then [l] else [] | _ => [])

/-- The text is these symbols: each as long as its first byte says. -/
def Symbols (text : Str) (syms : List Str) : Prop :=
  text = syms.flatten ∧ ∀ s ∈ syms, ∃ b t, s = b :: t ∧ Utf8.symbolLength b = s.length

/-- A place before, between or after symbols. -/
def Boundary (syms : List Str) (i : Nat) : Prop := ∃ k, i = (syms.take k).flatten.length

/-- Edges go forward, from symbol to symbol. -/
def OnSymbols (c : Cells) (syms : List Str) : Prop := ∀ i j, c i j ≠ [] → i < j ∧ Boundary syms i ∧ Boundary syms j

/-- No two edges cross. -/
def NonCrossing (c : Cells) : Prop := ∀ i k j l, i < k → k < j → j < l → c i j = [] ∨ c k l = []

/-- Brackets that match, when read as bytes: `()` and `[]`; the first argument is what is open. -/
def matched : List Byte → Str → Bool
  | st, [] => st = []
  | st, b :: s =>
    if b = 40 then matched (41 :: st) s
    else if b = 91 then matched (93 :: st) s
    else if b = 41 ∨ b = 93 then (match st with
      | [] => false
      | c :: st => b = c && matched st s)
    else matched st s

/-! ### Order -/

/-- The edge of `y` was made from the edge of `x`: its brackets should be outside. -/
def MadeFrom (y x : Epd) : Prop := ∃ e, x.source = some e ∧ y.parent = some e

/-- Edges are made from edges that were there before, so that they can be numbered. -/
def Founded (l : List Epd) : Prop := ∃ rank : Epd → Nat, ∀ x ∈ l, ∀ y ∈ l, MadeFrom y x → rank x < rank y

/-! ### Patterns -/

/-- Parts of a pattern. -/
inductive Item
  | lit (b : Byte)
  | tags
  | cat
  | text
  | attr (br : Byte) (name : Str)
  | all
  | score
  | role
  | star (br : Byte) (sep sub : Str)
deriving DecidableEq

/-- Brackets that belong together. -/
def bracketPairs : List (Byte × Byte) := [(40, 41), (91, 93), (123, 125), (60, 62)]

/-- The other bracket of a pair; a byte that is no bracket is its own partner. -/
def partner (b : Byte) : Byte := ((bracketPairs ++ bracketPairs.map Prod.swap).lookup b).getD b

/-- How the parts are written. -/
def Item.unparse : Item → Str
  | .lit b => [b]
  | .tags => [37, 84]
  | .cat => [37, 99]
  | .text => [37, 116]
  | .attr br name => [37, 97, br] ++ name ++ [partner br]
  | .all => [37, 65]
  | .score => [37, 115]
  | .role => [37, 114]
  | .star br sep sub => [37, 42, br] ++ sep ++ [partner br, br] ++ sub ++ [partner br]

def unparse (p : List Item) : Str := p.flatMap Item.unparse

/-- Literal characters other than `%`; names do not have the closing bracket in them. -/
def Item.Fits : Item → Prop
  | .lit b => b ≠ 37
  | .attr br name => partner br ∉ name
  | .star br sep sub => partner br ∉ sep ∧ partner br ∉ sub
  | _ => True

/-- The value of an attribute, or nothing. -/
def valueOf (name : Str) : List (Str × Str) → Str
  | [] => []
  | (k, v) :: m => if k = name then v else valueOf name m

/-- Words with a separator between those that are not empty; the separator is also before an empty word if something is before it. -/
def sepBy (sep : Str) : List Str → Str
  | [] => []
  | w :: ws => if w = [] then sepBy sep ws else w ++ ws.flatMap (fun v => sep ++ v)

/-- What a part stands for; a list is put in later. -/
def Item.meaning {D : Type} (st : Style D) (d : Edge D) : Item → Str
  | .lit b => [b]
  | .tags => sepBy st.tagSep d.tags
  | .cat => d.category
  | .text => d.text
  | .attr _ name => valueOf name d.av
  | .all => sepBy st.avPairsSep (d.av.map (fun q => q.1 ++ st.avSep ++ q.2))
  | .score => st.show_ d.score
  | .role => d.role
  | .star _ _ _ => [37, 42, 42, 42, 42, 42]

def meaning {D : Type} (st : Style D) (d : Edge D) (p : List Item) : Str := p.flatMap (Item.meaning st d)

def Item.isStar : Item → Bool
  | .star _ _ _ => true
  | _ => false

/-- The attributes are in the order of their names. -/
def InOrder (m : List (Str × Str)) : Prop := m.Pairwise (fun a b => below a.1 b.1)

/-- The edge `e` has what the part says about the edge `d`, where it says something. -/
def Item.same {D : Type} (st : Style D) (d e : Edge D) : Item → Prop
  | .tags => d.tags = [] ∨ e.tags = d.tags
  | .cat => d.category = [] ∨ e.category = d.category
  | .text => d.text = [] ∨ e.text = d.text
  | .attr _ name => valueOf name e.av = valueOf name d.av
  | .all => ∀ q ∈ d.av, valueOf q.1 e.av = q.2
  | .score => d.score = st.zero ∨ e.score = d.score
  | _ => True

end Verif.Bracket
