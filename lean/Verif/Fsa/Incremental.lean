import Verif.Fsa.Dfsa

/-!
Model of `minimize_incremental` and its helpers (fsa_algorithms.hpp of
`tools/datastructures/psi_query`).

The code is a template over the automaton class; so is the model: it takes the operations of the class as
an argument.  They are given for `DFSA` and for `BinDFSA`.  `none` is undefined behaviour.

Simplified: the iterator `last_arc` is taken before the recursive call and used after it; here the last
arc of the state is looked up again (the recursive call changes only states reached through that arc).
The `boost::unordered_set` is a list of the states in it, each with its hash at the time of the insertion;
looking up means: the hash now is the stored hash, and the states are equivalent now.  The hash function
is arbitrary.
-/
namespace Verif.Fsa
open Verif

/-- What the template needs from the automaton class. -/
structure Ops (σ : Type) where
  /-- The constructor. -/
  empty : σ
  /-- `size`. -/
  size : σ → Nat
  /-- `addState`. -/
  addState : σ → Bool → Nat × σ
  /-- `addArc`. -/
  addArc : σ → Nat → Sym × Nat → Option σ
  /-- `setEndState`. -/
  setEnd : σ → Nat → Option σ
  /-- `deleteLastState`. -/
  deleteLast : σ → Option σ
  /-- `isEndState`. -/
  isEnd : σ → Nat → Option Bool
  /-- `getArcs`. -/
  arcs : σ → Nat → Option (List (Sym × Nat))
  /-- `delta`. -/
  delta : σ → Nat → Sym → Option (Option Nat)
  /-- `setDest` of the last arc of a state. -/
  setLastDest : σ → Nat → Nat → Option σ

/-! ### The operations of the two classes -/

/-- The last arc gets another target. -/
def setLast (q : Nat) (l : List (Sym × Nat)) : List (Sym × Nat) :=
  match l.getLast? with
  | none => l
  | some arc => l.dropLast ++ [(arc.1, q)]

/-- The operations of `DFSA`, fsa_dfsa.hpp and fsa_ndfsa_impl.hpp.  (Accesses to states that do not exist
are undefined.  The number of a state that is set as an end state is not checked.) -/
def dfsaOps : Ops Fsa where
  empty := .empty
  size := Fsa.size
  addState := fun a b => a.addState b
  addArc := fun a p arc => if p < a.size then some (a.addArc p arc) else none
  setEnd := fun a p => some (a.setEnd p)
  deleteLast := fun a => if a.size = 0 then none else some a.deleteLastState
  isEnd := fun a p => some (a.isEnd p)
  arcs := fun a p => a.states[p]?
  delta := fun a p x => if p = a.size then none else some (a.ddelta p x)
  setLastDest := fun a p q => if a.arcs p = [] then none
    else some { a with states := a.states.set p (setLast q (a.arcs p)) }

/-- `setDest` of the last arc of a state, found as the one before `getArcs(state).second`. -/
def Bin.setLastDest (b : Bin) (p q : Nat) : Option Bin :=
  match (b.endPos p).toNat with
  | 0 => none
  | n + 1 => match b.arcs[n]? with
    | none => none
    | some arc => some { b with arcs := b.arcs.set n (arc.1, q) }

/-- The operations of `BinDFSA`, fsa_bindfsa.hpp. -/
def binOps : Ops Bin where
  empty := .empty
  size := Bin.size
  addState := fun b _ => b.addState
  addArc := Bin.addArc
  setEnd := Bin.setEnd
  deleteLast := Bin.deleteLastState
  isEnd := Bin.isEnd
  arcs := Bin.getArcs
  delta := Bin.delta
  setLastDest := Bin.setLastDest

/-! ### The register -/

/-- An entry of the register: the hash at the time of the insertion, and the state. -/
abbrev Entry := Nat × Nat

section
variable {σ : Type} (O : Ops σ) (h : Bool × List (Sym × Nat) → Nat)

/-- What `StateHash` (fsa_algorithms.hpp 890-915) looks at: the flag and the arcs. -/
def sig (s : σ) (p : Nat) : Option (Bool × List (Sym × Nat)) :=
  match O.isEnd s p, O.arcs s p with
  | some f, some l => some (f, l)
  | _, _ => none

/-- `StateEquiv`, fsa_algorithms.hpp 917-959. -/
def equiv (a b : Bool × List (Sym × Nat)) : Bool :=
  if a.1 ≠ b.1 then false
  else !listLt (arcLt natLt) a.2 b.2 && !listLt (arcLt natLt) b.2 a.2

/-- `state_register.find`, fsa_algorithms.hpp 713; `Register`, 961-974; `x` is the flag and the arcs of the
state looked for.  The entries with the right hash are compared.  (The inner `Option` is the result.) -/
def regFind (s : σ) (x : Bool × List (Sym × Nat)) : List Entry → Option (Option Nat)
  | [] => some none
  | e :: reg => if e.1 = h x then
      match sig O s e.2 with
      | none => none
      | some y => if equiv y x then some (some e.2) else regFind s x reg
    else regFind s x reg

/-- The end of `replace_or_register`, fsa_algorithms.hpp 713-721. -/
def rorEnd (s : σ) (reg : List Entry) (p child : Nat) : Option (σ × List Entry) :=
  match sig O s child with
  | none => none
  | some x => match regFind O h s x reg with
    | none => none
    | some (some q) => match O.setLastDest s p q with
      | none => none
      | some s => match O.deleteLast s with
        | none => none
        | some s => some (s, reg)
    | some none => some (s, reg ++ [(h x, child)])

/-- `replace_or_register`, fsa_algorithms.hpp 695-722 (running out of fuel is `none`). -/
def ror : Nat → σ → List Entry → Nat → Option (σ × List Entry)
  | 0, _, _, _ => none
  | n + 1, s, reg, p =>
    match (O.arcs s p).bind List.getLast? with
    | none => none
    | some last => match O.arcs s last.2 with
      | none => none
      | some [] => rorEnd O h s reg p last.2
      | some (_ :: _) => match ror n s reg last.2 with
        | none => none
        | some (s, reg) => rorEnd O h s reg p last.2

/-! ### Adding words -/

/-- The first inner loop, fsa_algorithms.hpp 664-670: the state reached, and the symbols that are left. -/
def walk (s : σ) : Nat → List Sym → Option (Nat × List Sym)
  | p, [] => some (p, [])
  | p, x :: w => match O.delta s p x with
    | none => none
    | some none => some (p, x :: w)
    | some (some q) => walk s q w

/-- The second inner loop, fsa_algorithms.hpp 677-682: the last state, and the automaton. -/
def addRest : σ → Nat → List Sym → Option (Nat × σ)
  | s, p, [] => some (p, s)
  | s, p, x :: w => match O.addArc (O.addState s false).2 p (x, (O.addState s false).1) with
    | none => none
    | some s' => addRest s' (O.addState s false).1 w

/-- fsa_algorithms.hpp 677-683. -/
def addEnd (s : σ) (reg : List Entry) (p : Nat) (rest : List Sym) : Option (σ × List Entry) :=
  match addRest O s p rest with
  | none => none
  | some (q, s) => match O.setEnd s q with
    | none => none
    | some s => some (s, reg)

/-- fsa_algorithms.hpp 673-675. -/
def rorIf (s : σ) (reg : List Entry) (p : Nat) : Option (σ × List Entry) :=
  match O.arcs s p with
  | none => none
  | some [] => some (s, reg)
  | some (_ :: _) => ror O h (O.size s) s reg p

/-- The body of the loop, fsa_algorithms.hpp 660-683, for one word. -/
def incWord (s : σ) (reg : List Entry) (w : List Sym) : Option (σ × List Entry) :=
  match walk O s 0 w with
  | none => none
  | some (p, rest) => match rorIf O h s reg p with
    | none => none
    | some (s, reg) => addEnd O s reg p rest

/-- The loop over the words, fsa_algorithms.hpp 659-688. -/
def incLoop : σ → List Entry → List (List Sym) → Option (σ × List Entry)
  | s, reg, [] => some (s, reg)
  | s, reg, w :: ws => match incWord O h s reg w with
    | none => none
    | some (s, reg) => incLoop s reg ws

/-- `minimize_incremental`, fsa_algorithms.hpp 644-693 (the number of the first state is 0). -/
def minimizeIncremental (ws : List (List Sym)) : Option σ :=
  match incLoop O h (O.addState O.empty true).2 [] ws with
  | none => none
  | some (s, reg) => (ror O h (O.size s) s reg 0).map (·.1)

end

end Verif.Fsa
