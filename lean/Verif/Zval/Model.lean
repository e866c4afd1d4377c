/-!
# The hash tables of the transferer (`common/zvalue.hpp`, `common/zvalue.cpp`)

`zhash` is an open-addressing hash table with double hashing and tombstones.
It is the base of the environments in which syntactic trees keep their
subtrees and attributes (`zenvironment`), and of the tables of symbols
(`zsymboltable`).

A slot of the block is a `zvalue`: `NULL_ZVALUE`, `DELETED_ZVALUE` or a value.
The three functions that a table is given (`key_hash_function`,
`val_hash_function`, `key_val_function`) are parameters of the model.

Simplifications: `unsigned int` is a natural number, with the reductions modulo
`2 ^ 32` written out; negative sizes are left out; the counters are natural
numbers.  A loop that never ends and undefined behaviour (a division by zero, a
size that does not fit into an `int`) are the outcome `none`.
-/

namespace Verif.Zval

/-- `common/zvalue.hpp`, 24-32: what a `zvalue*` of the block points to. -/
inductive Slot (V : Type) where
  | empty
  | deleted
  | live (v : V)
deriving Repr, DecidableEq

/-- `common/zvalue.hpp`, 587-593 and 622-624: the functions of a table. -/
structure Funs (K V : Type) where
  keyHash : K → Nat
  valHash : V → Nat
  same : K → V → Bool

/-- `common/zvalue.hpp`, 616-620: `size`, `occupied`, `occupied_and_deleted`,
`block`. -/
structure Table (V : Type) where
  size : Nat
  occ : Nat
  occDel : Nat
  block : List (Slot V)
deriving Repr, DecidableEq

/-- The number of values of `unsigned int`. -/
abbrev word : Nat := 2 ^ 32

/-- `common/zvalue.hpp`, 668 and 693: `(ix += h2) %= size`. -/
def advance (size h2 ix : Nat) : Nat := (ix + h2) % word % size

variable {K V : Type}

/-- `common/zvalue.hpp`, 667-668: the loop that looks for a free slot.  The
sequence of positions is determined by the position, so a loop that has made
`size` steps in vain never ends. -/
def findFree (block : List (Slot V)) (size h2 : Nat) : Nat → Nat → Option Nat
  | 0, _ => none
  | fuel + 1, ix =>
    match block[ix]? with
    | none => none
    | some (.live _) => findFree block size h2 fuel (advance size h2 ix)
    | some _ => some ix

/-- `common/zvalue.hpp`, 660-676: `zhash::put_`. -/
def Table.putRaw (F : Funs K V) (t : Table V) (v : V) : Option (Table V) :=
  if t.size = 0 then none
  else
    let h1 := F.valHash v % word
    (findFree t.block t.size (h1 ||| 1) t.size (h1 % t.size)).map fun ix =>
      { t with
        occDel := match t.block[ix]? with
          | some .empty => t.occDel + 1
          | _ => t.occDel
        block := t.block.set ix (.live v) }

/-- `common/zvalue.hpp`, 685-696: the loop of `zhash::get_`; the position of the
slot and the number of the probe. -/
def scan (same : V → Bool) (block : List (Slot V)) (size h2 : Nat) :
    Nat → Nat → Nat → Option (Nat × Nat)
  | 0, _, _ => none
  | fuel + 1, ix, i =>
    match block[ix]? with
    | none => none
    | some .empty => some (ix, i)
    | some .deleted => scan same block size h2 fuel (advance size h2 ix) (i + 1)
    | some (.live v) =>
      if same v then some (ix, i)
      else scan same block size h2 fuel (advance size h2 ix) (i + 1)

/-- `common/zvalue.hpp`, 678-697: `zhash::get_`. -/
def Table.getFrom (F : Funs K V) (t : Table V) (key : K) (i : Nat) : Option (Nat × Nat) :=
  if t.size = 0 then none
  else
    let h1 := F.keyHash key % word
    let h2 := h1 ||| 1
    scan (F.same key) t.block t.size h2 t.size ((h1 + i * h2) % word % t.size) i

/-- What `*get_(…)` is: `NULL_ZVALUE` is `none`. -/
def Slot.value : Slot V → Option V
  | .live v => some v
  | _ => none

/-- `common/zvalue.hpp`, 748-752: `zhash::get`. -/
def Table.get (F : Funs K V) (t : Table V) (key : K) : Option (Option V) :=
  (t.getFrom F key 0).map fun p => (t.block[p.1]?).bind Slot.value

/-- `common/zvalue.hpp`, 626-653: a new table (704-706: `resize` with no block). -/
def generate (V : Type) (size : Nat) : Table V :=
  { size := size, occ := 0, occDel := 0, block := List.replicate size .empty }

/-- `common/zvalue.hpp`, 709-713: the values of the old block are put into the new
one in the order of their slots. -/
def rehash (F : Funs K V) : List (Slot V) → Table V → Option (Table V)
  | [], t => some t
  | .live v :: rest, t => (t.putRaw F v).bind (rehash F rest)
  | _ :: rest, t => rehash F rest t

/-- `common/zvalue.hpp`, 700-719: `zhash::resize` of a table that has a block. -/
def Table.resize (F : Funs K V) (t : Table V) (newSize : Nat) : Option (Table V) :=
  (rehash F t.block
    { size := newSize, occ := t.occ, occDel := t.occDel,
      block := List.replicate newSize .empty }).map fun s =>
    { s with occDel := s.occ }

/-- `common/zvalue.hpp`, 773-781: `zhash::put`.  The new size is an `int`. -/
def Table.put (F : Funs K V) (t : Table V) (v : V) : Option (Table V) :=
  let t1 := { t with occ := t.occ + 1 }
  (if t.occ ≥ t.size / 2 then
      if 2 * t.size < 2 ^ 31 then t1.resize F (2 * t.size) else none
    else if t.occDel ≥ t.size - 1 then t1.resize F t.size
    else some t1).bind fun t2 => t2.putRaw F v

/-- `common/zvalue.hpp`, 759-771: `zhash::remove`. -/
def Table.remove (F : Funs K V) (t : Table V) (key : K) : Option (Option V × Table V) :=
  (t.getFrom F key 0).map fun (p : Nat × Nat) =>
    match t.block[p.1]? with
    | some (.live v) =>
      (some v, { t with occ := t.occ - 1, block := t.block.set p.1 .deleted })
    | _ => (none, t)

/-- The use of `zhash::getNext` (`common/zvalue.hpp`, 754-757): all values under
a key, as in the loops of `common/zvalue.cpp`, 435-461. -/
def Table.collect (F : Funs K V) (t : Table V) (key : K) : Nat → Nat → Option (List V)
  | 0, _ => none
  | fuel + 1, i =>
    match t.getFrom F key i with
    | none => none
    | some (ix, i') =>
      match t.block[ix]? with
      | some (.live v) => (t.collect F key fuel (i' + 1)).map (v :: ·)
      | _ => some []

/-- All values under a key. -/
def Table.all (F : Funs K V) (t : Table V) (key : K) : Option (List V) :=
  t.collect F key (t.size + 1) 0

/-- `common/zvalue.cpp`, 435-461: the loops of `deleteAllKeyValue` and
`deleteAllKey`; `p` tells which of the values under the key go. -/
def Table.deleteLoop (F : Funs K V) (key : K) (p : V → Bool) :
    Nat → Nat → Table V → Option (Table V)
  | 0, _, _ => none
  | fuel + 1, i, t =>
    match t.getFrom F key i with
    | none => none
    | some (ix, i') =>
      match t.block[ix]? with
      | some (.live v) =>
        Table.deleteLoop F key p fuel (i' + 1)
          (if p v then { t with occ := t.occ - 1, block := t.block.set ix .deleted } else t)
      | _ => some t

/-- `common/zvalue.cpp`, 435-461. -/
def Table.deleteAll (F : Funs K V) (t : Table V) (key : K) (p : V → Bool) : Option (Table V) :=
  Table.deleteLoop F key p (t.size + 1) 0 t

/-! ## Sequences of calls -/

/-- A call of a function of a table. -/
inductive Call (K V : Type) where
  | put (v : V)
  | get (k : K)
  | all (k : K)
  | remove (k : K)
  | deleteAll (k : K) (p : V → Bool)

/-- What a call returns. -/
inductive Answer (V : Type) where
  | nothing
  | one (v : Option V)
  | many (vs : List V)

/-- One call. -/
def Table.call (F : Funs K V) (t : Table V) : Call K V → Option (Answer V × Table V)
  | .put v => (t.put F v).map fun t' => (.nothing, t')
  | .get k => (t.get F k).map fun r => (.one r, t)
  | .all k => (t.all F k).map fun r => (.many r, t)
  | .remove k => (t.remove F k).map fun r => (.one r.1, r.2)
  | .deleteAll k p => (t.deleteAll F k p).map fun t' => (.nothing, t')

/-- A sequence of calls. -/
def Table.calls (F : Funs K V) : Table V → List (Call K V) → Option (List (Answer V) × Table V)
  | t, [] => some ([], t)
  | t, c :: cs =>
    (t.call F c).bind fun r => (Table.calls F r.2 cs).map fun q => (r.1 :: q.1, q.2)

/-! ## Environments -/

/-- `common/zvalue.cpp`, 408-419 and `common/zvalue.hpp`, 804-807: the functions of
an environment, whose values are pairs. -/
def envFuns (K W : Type) [DecidableEq K] (hash : K → Nat) : Funs K (K × W) :=
  { keyHash := hash, valHash := fun p => hash p.1, same := fun k p => decide (k = p.1) }

variable {W : Type} [DecidableEq K]

/-- `common/zvalue.hpp`, 829-838: `zenvironment::fetch`. -/
def Table.fetch (hash : K → Nat) (t : Table (K × W)) (s : K) : Option (Option W) :=
  (t.get (envFuns K W hash) s).map fun r => r.map (·.2)

/-- `common/zvalue.hpp`, 840-846: `zenvironment::defined`. -/
def Table.defined (hash : K → Nat) (t : Table (K × W)) (s : K) : Option Bool :=
  (t.get (envFuns K W hash) s).map fun r => r.isSome

/-- `common/zvalue.hpp`, 848-857: `zenvironment::change`; `setSecond` changes the
pair in its slot. -/
def Table.change (hash : K → Nat) (t : Table (K × W)) (s : K) (d : W) :
    Option (Table (K × W)) :=
  (t.getFrom (envFuns K W hash) s 0).bind fun (p : Nat × Nat) =>
    match t.block[p.1]? with
    | some (.live v) => some { t with block := t.block.set p.1 (.live (v.1, d)) }
    | _ => t.put (envFuns K W hash) (s, d)

/-- `common/zvalue.hpp`, 860-863: `zenvironment::insert`. -/
def Table.insert (hash : K → Nat) (t : Table (K × W)) (s : K) (d : W) :
    Option (Table (K × W)) :=
  t.put (envFuns K W hash) (s, d)

/-- `common/zvalue.cpp`, 435-448: `zenvironment::deleteAllKeyValue`. -/
def Table.deleteAllKeyValue [DecidableEq W] (hash : K → Nat) (t : Table (K × W)) (s : K) (d : W) :
    Option (Table (K × W)) :=
  t.deleteAll (envFuns K W hash) s fun p => decide (p.2 = d)

/-- `common/zvalue.cpp`, 450-461: `zenvironment::deleteAllKey`. -/
def Table.deleteAllKey (hash : K → Nat) (t : Table (K × W)) (s : K) : Option (Table (K × W)) :=
  t.deleteAll (envFuns K W hash) s fun _ => true

/-- A call of a function of an environment. -/
inductive EnvCall (K W : Type) where
  | fetch (s : K)
  | defined (s : K)
  | change (s : K) (d : W)
  | insert (s : K) (d : W)
  | deleteAllKeyValue (s : K) (d : W)
  | deleteAllKey (s : K)
  | remove (s : K)

/-- What a call returns. -/
inductive EnvAnswer (W : Type) where
  | nothing
  | value (v : Option W)
  | truth (b : Bool)
deriving DecidableEq

/-- One call. -/
def Table.envCall [DecidableEq W] (hash : K → Nat) (t : Table (K × W)) :
    EnvCall K W → Option (EnvAnswer W × Table (K × W))
  | .fetch s => (t.fetch hash s).map fun r => (.value r, t)
  | .defined s => (t.defined hash s).map fun r => (.truth r, t)
  | .change s d => (t.change hash s d).map fun t' => (.nothing, t')
  | .insert s d => (t.insert hash s d).map fun t' => (.nothing, t')
  | .deleteAllKeyValue s d => (t.deleteAllKeyValue hash s d).map fun t' => (.nothing, t')
  | .deleteAllKey s => (t.deleteAllKey hash s).map fun t' => (.nothing, t')
  | .remove s =>
    (t.remove (envFuns K W hash) s).map fun r => (.value (r.1.map (·.2)), r.2)

/-- A sequence of calls. -/
def Table.envCalls [DecidableEq W] (hash : K → Nat) :
    Table (K × W) → List (EnvCall K W) → Option (List (EnvAnswer W))
  | _, [] => some []
  | t, c :: cs =>
    (t.envCall hash c).bind fun r => (Table.envCalls hash r.2 cs).map fun q => r.1 :: q

end Verif.Zval
