/-!
# Building the minimal automaton of sorted words

`tools/translators/bonsai/utils/binaries/IncrementalFSA.cpp` and `minfsa.cpp`.

Simplifications: symbols and states are natural numbers that do not overflow (`line_to_word` gives
numbers without signs); a `std::map` is a list sorted by its keys and a `std::set` a sorted list; the
register `sig` is a list in the order of the insertions, as only the equality of signatures matters for
finding one; the messages for `verbose` are left out. Reading an element that is not there, the missing
value of `delta_prefix` at the end of the word and calls without end are `none`.
-/

namespace Verif.Minfsa

/-- `IncrementalFSA.hpp`, 19: `Transitions`, from symbols to states. -/
abbrev Row := List (Nat × Nat)

/-- `Register.hpp`, 23-38: the signature of a state: whether it is final, and its transitions. -/
abbrev Sig := Bool × Row

/-- A line that is written: a transition or a final state. -/
inductive Line
  | arc (p q a : Nat)
  | final (q : Nat)
deriving Repr, DecidableEq

/-- `m[k] = v` for a `std::map`. -/
def mset {α : Type} (k : Nat) (v : α) : List (Nat × α) → List (Nat × α)
  | [] => [(k, v)]
  | (j, u) :: l =>
    if k < j then (k, v) :: (j, u) :: l
    else if k = j then (k, v) :: l
    else (j, u) :: mset k v l

/-- `m.erase(k)` for a `std::map`. -/
def merase {α : Type} (k : Nat) (l : List (Nat × α)) : List (Nat × α) := l.filter fun e => e.1 != k

/-- `s.insert(k)` for a `std::set`. -/
def sinsert (k : Nat) : List Nat → List Nat
  | [] => [k]
  | j :: l => if k < j then k :: j :: l else if k = j then j :: l else j :: sinsert k l

/-- `IncrementalFSA.hpp`, 26-33. -/
structure Fsa where
  table : List (Nat × Row) := []
  ends : List Nat := []
  sig : List (Sig × Nat) := []
  states : Nat := 0
  traversed : List Nat := []
  added : List Nat := []
  out : List Line := []
deriving Repr, DecidableEq

/-- `state_table[q]` makes an empty row if there is none. -/
def Fsa.touch (f : Fsa) (q : Nat) : Fsa :=
  if (f.table.lookup q).isSome then f else { f with table := mset q [] f.table }

/-- `state_table[q]`. -/
def Fsa.row (f : Fsa) (q : Nat) : Row := (f.table.lookup q).getD []

/-- `IncrementalFSA.cpp`, 107-112: `add_new_state`; the number of the new state is `states`. -/
def Fsa.addState (f : Fsa) : Fsa :=
  { f with table := mset f.states [] f.table, states := f.states + 1 }

/-- `IncrementalFSA.cpp`, 114-125: `add_new_transition`. -/
def Fsa.addTransition (f : Fsa) (p q a : Nat) : Fsa :=
  { f with table := mset p (mset a q (f.row p)) f.table }

/-- `IncrementalFSA.cpp`, 185-188: `set_end_state`. -/
def Fsa.setEnd (f : Fsa) (q : Nat) : Fsa := { f with ends := sinsert q f.ends }

/-- `IncrementalFSA.cpp`, 140-146: `delete_state`. -/
def Fsa.delete (f : Fsa) (q : Nat) : Fsa :=
  if (f.table.lookup q).isSome then
    { f with table := merase q f.table, ends := f.ends.filter (· != q), states := f.states - 1 }
  else f

/-- `IncrementalFSA.cpp`, 61: the state of the last transition is replaced. -/
def Fsa.setLast (f : Fsa) (p q : Nat) : Fsa :=
  { f with table := mset p ((f.row p).dropLast ++ ((f.row p).getLast?.map fun e => (e.1, q)).toList) f.table }

/-- `IncrementalFSA.cpp`, 51-68: the end of `replace_or_register`, after the recursion. -/
def Fsa.register (f : Fsa) (s child : Nat) : Fsa :=
  let f1 := f.touch child
  let g := (f1.ends.contains child, f1.row child)
  match f1.sig.lookup g with
  | some e => (f1.setLast s e).delete child
  | none => { f1 with sig := f1.sig ++ [(g, child)] }

/-- `IncrementalFSA.cpp`, 43-69: `replace_or_register`; the fuel bounds the depth of the recursion. -/
def replaceOrRegister : Nat → Nat → Fsa → Option Fsa
  | 0, _, _ => none
  | fuel + 1, s, f =>
    match ((f.touch s).row s).getLast? with
    | none => none
    | some e =>
      let f1 := (f.touch s).touch e.2
      (if f1.row e.2 ≠ [] then replaceOrRegister fuel e.2 f1 else some f1).map fun f2 =>
        f2.register s e.2

/-- `IncrementalFSA.cpp`, 165-180: `delta_prefix`: the state, the rest of the word and the states on the
way. At the end of the word no value is returned. -/
def Fsa.deltaPrefix (f : Fsa) : Nat → List Nat → List Nat → Option (Nat × List Nat × List Nat)
  | _, [], _ => none
  | q, c :: w, way =>
    match (f.table.lookup q).bind fun r => r.lookup c with
    | some p => f.deltaPrefix p w (sinsert q way)
    | none => some (q, c :: w, sinsert q way)

/-- `IncrementalFSA.cpp`, 127-138: `add_branch`. -/
def Fsa.addBranch (f : Fsa) : Nat → List Nat → Fsa
  | q, [] => f.setEnd q
  | q, c :: w =>
    let p := f.states
    Fsa.addBranch { f.addState.addTransition q p c with added := sinsert p f.added } p w

/-- The transitions of a state are written. -/
def arcLines (e : Nat × Row) : List Line := e.2.map fun x => .arc e.1 x.2 x.1

/-- `IncrementalFSA.cpp`, 190-216: `purge`. -/
def Fsa.purge (f : Fsa) : Fsa :=
  match f.added with
  | [] => f
  | min :: _ =>
    let old := f.table.filter fun e => decide (e.1 < min) && !f.traversed.contains e.1
    { f with
      table := f.table.filter fun e => !(decide (e.1 < min) && !f.traversed.contains e.1)
      ends := f.ends.filter fun q => !(old.map Prod.fst).contains q
      out := f.out ++ old.flatMap arcLines ++
        (old.filter fun e => f.ends.contains e.1).map fun e => .final e.1 }

/-- `IncrementalFSA.cpp`, 17-41: `add_word`. -/
def Fsa.addWord (f : Fsa) (w : List Nat) : Option Fsa :=
  (f.deltaPrefix 0 w []).bind fun r =>
    let f1 := { f with traversed := r.2.2 }.touch r.1
    (if f1.row r.1 ≠ [] then replaceOrRegister (f1.states + 1) r.1 f1 else some f1).map fun f2 =>
      (Fsa.addBranch { f2 with added := [] } r.1 r.2.1).purge

/-- `IncrementalFSA.cpp`, 9-15. -/
def Fsa.start : Fsa := Fsa.addState {}

/-- `IncrementalFSA.cpp`, 218-232: `finalize` and `print_rest`: the lines that are written in all. -/
def Fsa.finalize (f : Fsa) : Option (List Line) :=
  (replaceOrRegister (f.states + 1) 0 f).map fun f1 =>
    f1.out ++ f1.table.flatMap arcLines ++ f1.ends.map .final

/-- `minfsa.cpp`, 36-48: the words are added one after the other. -/
def addWords : List (List Nat) → Fsa → Option Fsa
  | [], f => some f
  | w :: ws, f => (f.addWord w).bind (addWords ws)

/-- `minfsa.cpp`, 20-52: what is written for the words. -/
def minfsa (ws : List (List Nat)) : Option (List Line) := (addWords ws .start).bind Fsa.finalize

end Verif.Minfsa
