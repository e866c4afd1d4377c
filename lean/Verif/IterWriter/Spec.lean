import Verif.IterWriter.Model

/-!
What should be printed, stated without the loops.
-/
namespace Verif.IterWriter
open Verif

variable {I : Type}

/-! ### Which edges are printed -/

/-- Edges that are looked at: not discarded, and not blank unless asked for. -/
def candidates (cfg : Config) (es : List (Edge I)) : List (Edge I) := es.filter (fun e => !e.discarded && (cfg.withBlank || !e.blank))

/-- The first list that is not empty. -/
def firstNonempty {α : Type} : List (List α) → List α
  | [] => []
  | l :: ls => if l.isEmpty then firstNonempty ls else l

/-- The edges printed for a vertex: those with the basic tag; if there are none, those with the first fallback tag that has some; only
the first if there should be no alternatives. -/
def chosen (cfg : Config) (es : List (Edge I)) : List (Edge I) :=
  let c := candidates cfg es
  let all := firstNonempty (c.filter (fun e => e.basic) :: cfg.fallback.map (fun t => c.filter (fun e => e.tags.contains t)))
  if cfg.noAlts then all.take 1 else all

/-- The calls for an alternative. -/
def alternative (l : List (Edge I)) : List (Ev I) :=
  if l.isEmpty then [] else [.openAlt] ++ l.map (fun e => .put e.item) ++ [.closeAlt]

/-- The calls for the edges of a vertex. -/
def altOf (cfg : Config) (out : Int → List (Edge I)) (v : Int) : List (Ev I) := alternative (chosen cfg (out v))

def Ev.isGroup : Ev I → Bool
  | .openGroup _ => true
  | .closeGroup _ => true
  | _ => false

/-- Each tag is named once. -/
def CleanTags (out : Int → List (Edge I)) : Prop := ∀ v, ∀ e ∈ out v, e.tags.Nodup

/-! ### Groups -/

/-- The calls about groups of one tag: `true` for opening. -/
def groupCalls (t : Str) (evs : List (Ev I)) : List Bool :=
  evs.flatMap (fun e => match e with
    | .openGroup u => if u = t then [true] else []
    | .closeGroup u => if u = t then [false] else []
    | _ => [])

/-- Opened and closed `k` times in turn. -/
def pairs (k : Nat) : List Bool := (List.replicate k [true, false]).flatten

/-- Where the first edge with the tag ends. -/
def firstTarget (t : Str) (es : List (Edge I)) : Option Int :=
  ((es.filter (fun e => !e.discarded && e.tags.contains t)).head?).map Edge.target

/-- The vertices are parted into pieces: each begins where an edge with the tag begins, and this edge ends where the next piece begins. -/
inductive Chain (out : Int → List (Edge I)) (t : Str) : Int → List (List Int) → Prop
  | nil (v : Int) : Chain out t v []
  | cons {v w : Int} {body : List Int} {rest : List (List Int)} : firstTarget t (out v) = some w → (∀ u ∈ v :: body, u ≠ w) →
      Chain out t w rest → Chain out t v ((v :: body) :: rest)

/-- The calls for a piece. -/
def groupOf (cfg : Config) (out : Int → List (Edge I)) (t : Str) (vs : List Int) : List (Ev I) :=
  [.openGroup t] ++ vs.flatMap (altOf cfg out) ++ [.closeGroup t]

/-! ### Text with separators -/

/-- Words with a separator between. -/
def between (sep : Str) : List Str → Str
  | [] => []
  | w :: ws => w ++ ws.flatMap (fun v => sep ++ v)

/-! ### JSON -/

/-- Values of JSON: strings, arrays, objects. -/
inductive Val
  | str (s : Str)
  | arr (l : List Val)
  | obj (l : List (Str × Val))

/-- The characters between the quotes (RFC 8259, section 7; `\u` left out; bytes above 127 are taken as they are). -/
inductive Chars : Str → Str → Prop
  | nil : Chars [] []
  | plain {b : Byte} {s t : Str} : 32 ≤ b → b ≠ 34 → b ≠ 92 → Chars s t → Chars (b :: s) (b :: t)
  | quote {s t : Str} : Chars s t → Chars (34 :: s) (92 :: 34 :: t)
  | backslash {s t : Str} : Chars s t → Chars (92 :: s) (92 :: 92 :: t)
  | slash {s t : Str} : Chars s t → Chars (47 :: s) (92 :: 47 :: t)
  | b {s t : Str} : Chars s t → Chars (8 :: s) (92 :: 98 :: t)
  | f {s t : Str} : Chars s t → Chars (12 :: s) (92 :: 102 :: t)
  | n {s t : Str} : Chars s t → Chars (10 :: s) (92 :: 110 :: t)
  | r {s t : Str} : Chars s t → Chars (13 :: s) (92 :: 114 :: t)
  | t {s t : Str} : Chars s t → Chars (9 :: s) (92 :: 116 :: t)

/-- White space. -/
def Blank (s : Str) : Prop := ∀ b ∈ s, b = 32 ∨ b = 9 ∨ b = 10 ∨ b = 13

mutual
/-- This text is JSON for this value (RFC 8259, sections 3-5). -/
inductive IsJson : Val → Str → Prop
  | str {s t : Str} : Chars s t → IsJson (.str s) ([34] ++ t ++ [34])
  | arr {l : List Val} {t : Str} : Items l t → IsJson (.arr l) ([91] ++ t ++ [93])
  | obj {l : List (Str × Val)} {t : Str} : Fields l t → IsJson (.obj l) ([123] ++ t ++ [125])
/-- Values with commas between. -/
inductive Items : List Val → Str → Prop
  | nil {w : Str} : Blank w → Items [] w
  | one {v : Val} {w t w' : Str} : Blank w → Blank w' → IsJson v t → Items [v] (w ++ t ++ w')
  | cons {v v' : Val} {l : List Val} {w t w' u : Str} : Blank w → Blank w' → IsJson v t → Items (v' :: l) u →
      Items (v :: v' :: l) (w ++ t ++ w' ++ [44] ++ u)
/-- Names and values with commas between. -/
inductive Fields : List (Str × Val) → Str → Prop
  | nil {w : Str} : Blank w → Fields [] w
  | one {k : Str} {v : Val} {w a w' w'' t w3 : Str} : Blank w → Blank w' → Blank w'' → Blank w3 → Chars k a → IsJson v t →
      Fields [(k, v)] (w ++ [34] ++ a ++ [34] ++ w' ++ [58] ++ w'' ++ t ++ w3)
  | cons {k : Str} {v : Val} {p : Str × Val} {l : List (Str × Val)} {w a w' w'' t w3 u : Str} : Blank w → Blank w' → Blank w'' →
      Blank w3 → Chars k a → IsJson v t → Fields (p :: l) u →
      Fields ((k, v) :: p :: l) (w ++ [34] ++ a ++ [34] ++ w' ++ [58] ++ w'' ++ t ++ w3 ++ [44] ++ u)
end

/-- No control characters. -/
def NoControl (s : Str) : Prop := ∀ b ∈ s, 32 ≤ b

/-- The value of an alternative: the element itself if there is only one. -/
def altVal (val : I → Val) (l : List (Edge I)) : List Val :=
  match l with
  | [] => []
  | [e] => [val e.item]
  | l => [.arr (l.map (fun e => val e.item))]

/-- The value of a piece: an array, if something is in it. -/
def groupVal (cfg : Config) (out : Int → List (Edge I)) (val : I → Val) (vs : List Int) : List Val :=
  let l := vs.flatMap (fun v => altVal val (chosen cfg (out v)))
  if l.isEmpty then [] else [.arr l]

end Verif.IterWriter
