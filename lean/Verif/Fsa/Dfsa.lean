import Verif.Fsa.Model

/-!
Model of `DFSA` (fsa_dfsa.hpp) and `BinDFSA` (fsa_bindfsa.hpp), both of
`tools/datastructures/psi_query`.

`BinDFSA` is modelled for `PosT = uint32_t` (`MemBinDFSA`, `MapBinDFSA`, `StringBinFSA`, l. 383-386).
Undefined behaviour (an index or an iterator out of range) is `none`.  Simplified: the target of an arc
is a natural number (`uint32_t` in the code); `load` and `save` (l. 320-381) are not modelled, nor is the
growth of the vectors (l. 158-160).
-/
namespace Verif.Fsa
open Verif

/-! ### Deterministic automata -/

/-- `DFSA::delta`, fsa_dfsa.hpp 67-79. -/
def Fsa.ddelta (a : Fsa) (p : Nat) (x : Sym) : Option Nat :=
  if a.size < p then none else (a.find p x).head?.map (·.2)

/-- The loop of `DFSA::in`. -/
def Fsa.dinLoop (a : Fsa) : Nat → List Sym → Bool
  | p, [] => a.isEnd p
  | p, x :: w => match a.ddelta p x with
    | some q => a.dinLoop q w
    | none => false

/-- `DFSA::in`, fsa_dfsa.hpp 46-59. -/
def Fsa.din (a : Fsa) (w : List Sym) : Bool := a.dinLoop 0 w

/-! ### Packed automata -/

/-- A `BinDFSA`, fsa_bindfsa.hpp 35-37. -/
structure Bin where
  /-- `m_states`: the position of the first arc, with the top bit set for end states. -/
  states : List UInt32
  /-- `m_arcs`. -/
  arcs : List (Sym × Nat)
  deriving DecidableEq, Repr

/-- `PosT(1) << (sizeof(PosT)*8-1)`. -/
def topBit : UInt32 := 2147483648

/-- `setLastBit`, fsa_bindfsa.hpp 209-212. -/
def setLastBit (pos : UInt32) : UInt32 := pos ||| topBit
/-- `unsetLastBit`, fsa_bindfsa.hpp 214-217. -/
def unsetLastBit (pos : UInt32) : UInt32 := pos &&& ~~~topBit
/-- The test of `isEndState`, fsa_bindfsa.hpp 222. -/
def hasLastBit (pos : UInt32) : Bool := decide (pos &&& topBit ≠ 0)

/-- The constructor, fsa_bindfsa.hpp 98. -/
def Bin.empty : Bin := ⟨[], []⟩

/-- `size`, fsa_bindfsa.hpp 272-275. -/
def Bin.size (b : Bin) : Nat := b.states.length

/-- `isEndState`, fsa_bindfsa.hpp 220-223. -/
def Bin.isEnd (b : Bin) (p : Nat) : Option Bool := (b.states[p]?).map hasLastBit

/-- `setEndState`, fsa_bindfsa.hpp 123-126. -/
def Bin.setEnd (b : Bin) (p : Nat) : Option Bin :=
  (b.states[p]?).map (fun s => { b with states := b.states.set p (setLastBit s) })

/-- `unsetEndState`, fsa_bindfsa.hpp 128-131. -/
def Bin.unsetEnd (b : Bin) (p : Nat) : Option Bin :=
  (b.states[p]?).map (fun s => { b with states := b.states.set p (unsetLastBit s) })

/-- `addState`, fsa_bindfsa.hpp 133-141.  (The argument only leads to a warning.) -/
def Bin.addState (b : Bin) : Nat × Bin :=
  (b.size, { b with states := b.states ++ [UInt32.ofNat b.arcs.length] })

/-- The loop of `addArc` that looks for the place, fsa_bindfsa.hpp 155-156; `n` is `end - pos`. -/
def scan (arcs : List (Sym × Nat)) (arc : Sym × Nat) : Nat → Nat → Option Nat
  | 0, pos => some pos
  | n + 1, pos => match arcs[pos]? with
    | none => none
    | some x => if arcLt natLt x arc then scan arcs arc n (pos + 1) else some pos

/-- The new position of a later state, fsa_bindfsa.hpp 164-167. -/
def bump (s : UInt32) : UInt32 :=
  if hasLastBit s then setLastBit (unsetLastBit s + 1) else s + 1

/-- `end` of `addArc`, fsa_bindfsa.hpp 150-153. -/
def Bin.endPos (b : Bin) (p : Nat) : UInt32 :=
  match b.states[p + 1]? with
  | some s => unsetLastBit s
  | none => UInt32.ofNat b.arcs.length

/-- `addArc`, fsa_bindfsa.hpp 143-169. -/
def Bin.addArc (b : Bin) (p : Nat) (arc : Sym × Nat) : Option Bin :=
  match b.states[p]? with
  | none => some b
  | some s =>
    let pos := (unsetLastBit s).toNat
    match scan b.arcs arc ((b.endPos p).toNat - pos) pos with
    | none => none
    | some pos =>
      if b.arcs.length < pos then none
      else some ⟨b.states.take (p + 1) ++ (b.states.drop (p + 1)).map bump,
        b.arcs.take pos ++ arc :: b.arcs.drop pos⟩

/-- `deleteLastState`, fsa_bindfsa.hpp 171-179 (`resize` with a larger size would add arcs; that is
counted as undefined here). -/
def Bin.deleteLastState (b : Bin) : Option Bin :=
  match b.states.getLast? with
  | none => none
  | some s =>
    if b.arcs.length < (unsetLastBit s).toNat then none
    else some ⟨b.states.dropLast, b.arcs.take (unsetLastBit s).toNat⟩

/-- The range of two positions. -/
def Bin.range (b : Bin) (i j : Nat) : Option (List (Sym × Nat)) :=
  if i ≤ j ∧ j ≤ b.arcs.length then some ((b.arcs.drop i).take (j - i)) else none

/-- `getArcs`, fsa_bindfsa.hpp 236-270.  In an automaton without states `m_states.size()-1` is the
largest number, and `m_states[p]` is undefined. -/
def Bin.getArcs (b : Bin) (p : Nat) : Option (List (Sym × Nat)) :=
  if b.states = [] then none
  else match b.states[p]?, b.states[p + 1]? with
    | some s, some s' => b.range (unsetLastBit s).toNat (unsetLastBit s').toNat
    | some s, none => b.range (unsetLastBit s).toNat b.arcs.length
    | none, _ => some []

/-- `find`, fsa_bindfsa.hpp 181-192: the arc found.  `std::lower_bound` on a sorted range yields the
first element that is not less. -/
def Bin.find (b : Bin) (p : Nat) (x : Sym) : Option (Option (Sym × Nat)) :=
  (b.getArcs p).map (fun l => (checkFound x (l.dropWhile (fun arc => arcLt natLt arc (x, 0)))).head?)

/-- `delta`, fsa_bindfsa.hpp 48-57; the outer `Option` is undefined behaviour, the inner one the
result. -/
def Bin.delta (b : Bin) (p : Nat) (x : Sym) : Option (Option Nat) :=
  if b.size < p then some none else (b.find p x).map (·.map (·.2))

/-- The loop of `in`. -/
def Bin.inLoop (b : Bin) : Nat → List Sym → Option Bool
  | p, [] => b.isEnd p
  | p, x :: w => match b.delta p x with
    | none => none
    | some none => some false
    | some (some q) => b.inLoop q w

/-- `in`, fsa_bindfsa.hpp 194-207. -/
def Bin.accepts (b : Bin) (w : List Sym) : Option Bool := b.inLoop 0 w

/-- `getEndStates`, fsa_bindfsa.hpp 225-234. -/
def Bin.ends (b : Bin) : List Nat := (List.range b.size).filter (fun p => (b.isEnd p).getD false)

/-- The loop of `epsClosure`; `none` is undefined behaviour or running out of fuel. -/
def Bin.closureLoop (b : Bin) : Nat → List Nat × List Nat → Option (List Nat)
  | 0, _ => none
  | n + 1, (c, q) => match q with
    | [] => some c
    | s :: q => match b.getArcs s with
      | none => none
      | some l => b.closureLoop n (l.foldl closureStep (c, q))

/-- `epsClosure`, fsa_bindfsa.hpp 297-318. -/
def Bin.epsClosure (b : Bin) (p : Nat) : Option (List Nat) := b.closureLoop (b.size + 2) ([p], [p])

/-! ### Sequences of operations -/

/-- The operations. -/
inductive BinOp
  | addState
  | addArc (p : Nat) (arc : Sym × Nat)
  | setEnd (p : Nat)
  | unsetEnd (p : Nat)
  | deleteLastState

/-- The operations on a packed automaton. -/
def Bin.apply (b : Bin) : BinOp → Option Bin
  | .addState => some b.addState.2
  | .addArc p arc => b.addArc p arc
  | .setEnd p => b.setEnd p
  | .unsetEnd p => b.unsetEnd p
  | .deleteLastState => b.deleteLastState

/-- A sequence of operations. -/
def Bin.applyAll (b : Bin) : List BinOp → Option Bin
  | [] => some b
  | o :: os => match b.apply o with
    | none => none
    | some b => b.applyAll os

end Verif.Fsa
