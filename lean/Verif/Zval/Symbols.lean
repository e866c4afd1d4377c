import Verif.Basic
import Verif.Zval.Model

/-!
# Tables of symbols and vectors (`common/zvalue.hpp`, `common/zvalue.cpp`)

A symbol is an object with an address and a text.  The addresses are the
numbers in which the objects are made, so that two different objects have
different ones.

Simplifications: the shift of a negative `int` and the negation of the smallest
one (`common/zvalue.cpp`, 422-428) are taken modulo `2 ^ 32`, as compilers do; the
destructor of a symbol is left out.
-/

namespace Verif.Zval

/-- `common/zvalue.hpp`, 317-407: `zsymbol`. -/
structure Sym where
  id : Nat
  text : Str
deriving Repr, DecidableEq

/-- `common/zvalue.cpp`, 422-428: `string_hash_function`. -/
def stringHash (s : Str) : Nat :=
  let h := s.foldl (fun (h : BitVec 32) c => (h <<< 1) ^^^ c.toBitVec.signExtend 32) 29830#32
  (if h.msb then -h else h).toNat

/-- `common/zvalue.cpp`, 431-452 and 463-468: the functions of a table of symbols. -/
def symFuns : Funs Str Sym :=
  { keyHash := stringHash, valHash := fun z => stringHash z.text,
    same := fun k z => decide (k = z.text) }

/-- A table of symbols and the number of the next object. -/
structure SymTable where
  table : Table Sym
  next : Nat

/-- `common/zvalue.cpp`, 463-468: a new table. -/
def SymTable.new : SymTable := { table := generate Sym 1024, next := 0 }

/-- `common/zvalue.cpp`, 480-494: `zsymboltable::get_symbol(holder, a_s)`. -/
def SymTable.getSymbol (st : SymTable) (s : Str) : Option (Sym × SymTable) :=
  (st.table.get symFuns s).bind fun x =>
    x.elim
      ((st.table.put symFuns { id := st.next, text := s }).map fun t =>
        ({ id := st.next, text := s }, { table := t, next := st.next + 1 }))
      (fun z => some (z, st))

/-- `common/zvalue.cpp`, 496-512: `zsymboltable::get_symbol(zs)`, with the making of `zs`
by its callers (1025-1028). -/
def SymTable.getRaw (st : SymTable) (s : Str) : Option (Sym × SymTable) :=
  let zs : Sym := { id := st.next, text := s }
  (st.table.get symFuns s).bind fun x =>
    x.elim
      ((st.table.put symFuns zs).map fun t => (zs, { table := t, next := st.next + 1 }))
      (fun z => some (z, { st with next := st.next + 1 }))

/-- `common/zvalue.cpp`, 519-529: `zsymboltable::remove_symbol`; `sm` is never set. -/
def SymTable.removeSymbol (st : SymTable) (s : Str) : Option (Option Sym × SymTable) :=
  (st.table.remove symFuns s).map fun r => (none, { st with table := r.2 })

/-- A call of a function of a table of symbols. -/
inductive SymCall where
  | get (s : Str)
  | getRaw (s : Str)
  | remove (s : Str)
deriving DecidableEq

/-- One call and the address that it returns. -/
def SymTable.call (st : SymTable) : SymCall → Option (Option Nat × SymTable)
  | .get s => (st.getSymbol s).map fun r => (some r.1.id, r.2)
  | .getRaw s => (st.getRaw s).map fun r => (some r.1.id, r.2)
  | .remove s => (st.removeSymbol s).map fun r => (r.1.map (·.id), r.2)

/-- A sequence of calls. -/
def SymTable.calls : SymTable → List SymCall → Option (List (Option Nat))
  | _, [] => some []
  | st, c :: cs => (st.call c).bind fun r => (SymTable.calls r.2 cs).map (r.1 :: ·)

/-! ## Putting symbols together -/

/-- `common/zvalue.cpp`, 1016-1029: the text of the result of `zf_concat`; `none` is
`NULL`. -/
def concat (a b : Option Str) : Option Str :=
  match a, b with
  | none, b => b
  | some a, none => some a
  | some a, some b => if a.length = 0 then some b else some (a ++ b)

/-- `common/zvalue.cpp`, 1031-1057: the text of the result of `zf_concat_with_space`. -/
def concatWithSpace (a b : Option Str) : Option Str :=
  match a, b with
  | none, b => b
  | some a, none => some a
  | some a, some b =>
    if a.length = 0 then some b
    else if b.length = 0 then some a
    else if a[a.length - 1]? = some B.space ∨ b[0]? = some B.space then some (a ++ b)
    else some (a ++ [B.space] ++ b)

/-! ## Vectors

The bytes that `memset` clears (`common/zvalue.hpp`, 468 and 470) are either
overwritten at once or outside the elements; the model only notes when they are
outside the block. -/

/-- `common/zvalue.hpp`, 418-420: `size`, `occupied` and `block`. -/
structure Vec (α : Type) where
  size : Nat
  occ : Nat
  block : List (Option α)
deriving Repr, DecidableEq

variable {α : Type}

/-- `common/zvalue.hpp`, 422-429 and 487-492: `zvector::generate`. -/
def Vec.generate (α : Type) (initialSize : Nat) : Vec α :=
  let n := if 10 > initialSize then 10 else initialSize
  { size := n, occ := 0, block := List.replicate n none }

/-- `common/zvalue.hpp`, 442-453: `zvector::resize`. -/
def Vec.resize (v : Vec α) (newSize : Nat) : Vec α :=
  { v with size := newSize, block := v.block.take v.occ ++ List.replicate (newSize - v.occ) none }

/-- `common/zvalue.hpp`, 436-440: `zvector::memRequest`; `90*size` is an `int`. -/
def Vec.memRequest (v : Vec α) (count : Nat) : Option (Vec α) :=
  if 90 * v.size ≥ 2 ^ 31 then none
  else if v.occ + count > 90 * v.size / 100 then some (v.resize (2 * v.size))
  else some v

/-- A write to an element of the block. -/
def Vec.write (v : Vec α) (i : Nat) (x : Option α) : Option (Vec α) :=
  if i < v.block.length then some { v with block := v.block.set i x } else none

/-- `common/zvalue.hpp`, 497-501: `zvector::add`. -/
def Vec.add (v : Vec α) (x : α) : Option (Vec α) :=
  (v.memRequest 1).bind fun w => (w.write w.occ (some x)).map fun u => { u with occ := u.occ + 1 }

/-- `common/zvalue.hpp`, 546-550: `zvector::elementAt`. -/
def Vec.elementAt (v : Vec α) (i : Nat) : Option α :=
  if i < v.occ then v.block[i]?.join else none

/-- `common/zvalue.hpp`, 516-521: `zvector::pop`. -/
def Vec.pop (v : Vec α) : Option (α × Vec α) :=
  if v.occ = 0 then none
  else (v.elementAt (v.occ - 1)).map fun x => (x, { v with occ := v.occ - 1 })

/-- `common/zvalue.hpp`, 464-465 with a positive step: the elements from the last one
down to the position go one place up. -/
def Vec.moveUp (v : Vec α) (position : Nat) : Nat → Option (Vec α)
  | 0 => some v
  | n + 1 =>
    (v.block[position + n]?).bind fun x =>
      (v.write (position + n + 1) x).bind fun w => w.moveUp position n

/-- `common/zvalue.hpp`, 560-565: `zvector::insert` with `move(1, position)` (455-474). -/
def Vec.insert (v : Vec α) (x : α) (position : Nat) : Option (Vec α) :=
  if position < v.occ then
    (v.memRequest 1).bind fun w =>
      (w.moveUp position (w.occ - position)).bind fun u =>
        (u.write position (some x)).map fun z => { z with occ := z.occ + 1 }
  else none

/-- `common/zvalue.hpp`, 567-571: `zvector::change`. -/
def Vec.change (v : Vec α) (position : Nat) (x : α) : Option (Vec α) :=
  if position < v.occ then v.write position (some x) else none

/-- `common/zvalue.hpp`, 464-465 with a negative step: the elements from the position up
to the last one go one place down. -/
def Vec.moveDown (v : Vec α) : Nat → Nat → Option (Vec α)
  | _, 0 => some v
  | position, n + 1 =>
    (v.block[position]?).bind fun x =>
      (v.write (position - 1) x).bind fun w => w.moveDown (position + 1) n

/-- `common/zvalue.hpp`, 573-578: `zvector::remove` with `move(-1, position+1)` (455-474); the
byte that is cleared is that of the element `occupied+1`. -/
def Vec.remove (v : Vec α) (position : Nat) : Option (α × Vec α) :=
  (v.elementAt position).bind fun x =>
    (v.moveDown (position + 1) (v.occ - (position + 1))).bind fun w =>
      if w.occ + 1 < w.size then some (x, { w with occ := w.occ - 1 }) else none

/-- A call of a function of a vector. -/
inductive VecCall (α : Type) where
  | add (x : α)
  | pop
  | elementAt (i : Nat)
  | insert (x : α) (i : Nat)
  | change (i : Nat) (x : α)
  | remove (i : Nat)

/-- One call. -/
def Vec.call (v : Vec α) : VecCall α → Option (Option α × Vec α)
  | .add x => (v.add x).map fun w => (none, w)
  | .pop => v.pop.map fun r => (some r.1, r.2)
  | .elementAt i => (v.elementAt i).map fun x => (some x, v)
  | .insert x i => (v.insert x i).map fun w => (none, w)
  | .change i x => (v.change i x).map fun w => (none, w)
  | .remove i => (v.remove i).map fun r => (some r.1, r.2)

/-- A sequence of calls. -/
def Vec.calls : Vec α → List (VecCall α) → Option (List (Option α))
  | _, [] => some []
  | v, c :: cs => (v.call c).bind fun r => (Vec.calls r.2 cs).map (r.1 :: ·)

end Verif.Zval
