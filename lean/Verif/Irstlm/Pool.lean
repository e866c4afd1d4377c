import Mathlib.Data.List.Perm.Basic

/-!
# Pools of memory of irstlm

`tools/translators/bonsai/irstlm/mempool.{h,cpp}`: `mempool` and `storage`.

Simplifications: an address is the number of a block and a place in the block (`new char[]` gives a block
that is apart from all others); of the memory only the pointers at the beginning of the items are kept; sizes
are natural numbers that do not overflow; a pointer has 8 bytes. Writing outside of a block and the division
by zero are `none`.
-/

namespace Verif.Irstlm

/-- A block and a place in it. -/
structure Addr where
  block : Nat
  offset : Nat
deriving Repr, DecidableEq

/-- `mempool.h`, 60-67. The fields `true_size` and `block_list` follow from the others. -/
structure Pool where
  itemSize : Nat
  blockSize : Nat
  /-- The pointer at the beginning of an item. -/
  cell : Addr → Option Addr
  freeList : Option Addr
  entries : Int
  blocknum : Nat

/-- `mempool.cpp`, 49-51: the size of an item in the pool. -/
def roundUp (is : Nat) : Nat :=
  let s := if is > 8 then is else 0
  s + 8 - s % 8

/-- `*(char **)a = v`. -/
def store (cell : Addr → Option Addr) (a : Addr) (v : Option Addr) : Addr → Option Addr :=
  fun b => if b = a then v else cell b

/-- `mempool.cpp`, 75-78 and 104-107: the loop; `n` rounds are left, `ptr` is the place in the block. -/
def linkLoop (is b : Nat) : Nat → Nat → (Addr → Option Addr) → Nat × (Addr → Option Addr)
  | 0, ptr, cell => (ptr, cell)
  | n + 1, ptr, cell => linkLoop is b n (ptr + is) (store cell ⟨b, ptr⟩ (some ⟨b, ptr + is⟩))

/-- `mempool.cpp`, 71-79 and 100-109: the items of a new block become the free list. A block without items
has no place for the last pointer. -/
def linkBlock (is bs b : Nat) (cell : Addr → Option Addr) : Option (Addr → Option Addr) :=
  let r := linkLoop is b (bs - 1) 0 cell
  if r.1 + 8 ≤ is * bs then some (store r.2 ⟨b, r.1⟩ none) else none

/-- `mempool.cpp`, 44-81. -/
def Pool.new (is bs : Nat) : Option Pool :=
  (linkBlock (roundUp is) bs 0 fun _ => none).map fun cell =>
    { itemSize := roundUp is, blockSize := bs, cell := cell, freeList := some ⟨0, 0⟩,
      entries := 0, blocknum := 1 }

/-- `mempool.cpp`, 88-112: a new block if there is no free item. -/
def Pool.extend (p : Pool) : Option Pool :=
  match p.freeList with
  | some _ => some p
  | none =>
    (linkBlock p.itemSize p.blockSize p.blocknum p.cell).map fun cell =>
      { p with cell := cell, freeList := some ⟨p.blocknum, 0⟩, blocknum := p.blocknum + 1 }

/-- `mempool.cpp`, 84-126: `allocate`. -/
def Pool.allocate (p : Pool) : Option (Addr × Pool) :=
  p.extend.bind fun q =>
    q.freeList.map fun a =>
      (a, { q with freeList := q.cell a, cell := store q.cell a none, entries := q.entries + 1 })

/-- `mempool.cpp`, 129-152: `free`. -/
def Pool.free (p : Pool) (a : Addr) : Pool :=
  { p with cell := store p.cell a p.freeList, freeList := some a, entries := p.entries - 1 }

/-- The owner of an item writes to it. -/
def Pool.write (p : Pool) (a : Addr) (v : Option Addr) : Pool := { p with cell := store p.cell a v }

/-! ## Pools for items of different sizes -/

/-- Memory that `storage` gives: an item of a pool or memory of the system, whose blocks are numbered. -/
inductive Memory
  | pooled (size : Nat) (a : Addr)
  | system (k : Nat)
deriving Repr, DecidableEq

/-- `mempool.h`, 146-151. `system` are the blocks from `calloc` that have not been freed, `calls` is their
number so far. -/
structure Storage where
  setsize : Nat
  poolsize : Nat
  poolset : Nat → Option Pool
  system : List Nat
  newmemory : Nat
  newcalls : Nat

/-- `mempool.cpp`, 382-391. -/
def Storage.new (maxsize blocksize : Nat) : Storage :=
  { setsize := maxsize, poolsize := blocksize, poolset := fun _ => none, system := [], newmemory := 0,
    newcalls := 0 }

/-- `mempool.cpp`, 404-406: the pool for a size. -/
def Storage.pool (s : Storage) (size : Nat) : Option Pool :=
  match s.poolset size with
  | some p => some p
  | none => if size = 0 then none else Pool.new size (s.poolsize / size)

/-- `poolset[size] = p`. -/
def Storage.setPool (s : Storage) (size : Nat) (p : Pool) : Storage :=
  { s with poolset := fun k => if k = size then some p else s.poolset k }

/-- `mempool.cpp`, 401-420: `allocate`. -/
def Storage.allocate (s : Storage) (size : Nat) : Option (Memory × Storage) :=
  if size ≤ s.setsize then
    (s.pool size).bind fun p =>
      p.allocate.map fun r => (.pooled size r.1, s.setPool size r.2)
  else
    some (.system s.newcalls, { s with
      system := s.newcalls :: s.system, newmemory := s.newmemory + size + 8, newcalls := s.newcalls + 1 })

/-- `mempool.cpp`, 458-474: `free`. The address of an item is used in the pool for the given size, whatever
it is; for large sizes the function calls itself with the size 0, not the function of the system. -/
def Storage.free (s : Storage) (m : Memory) (size : Nat) : Storage :=
  let k := if size > s.setsize then 0 else size
  match s.poolset k, m with
  | some p, .pooled _ a => s.setPool k (p.free a)
  | _, _ => s

/-! ## What is claimed -/

/-- The pools and the items in use that come about if only items in use are freed and written to. -/
inductive Reach (is bs : Nat) : Pool → List Addr → Prop
  | start {p} : Pool.new is bs = some p → Reach is bs p []
  | allocate {p live a q} : Reach is bs p live → p.allocate = some (a, q) → Reach is bs q (a :: live)
  | free {p live a} : Reach is bs p live → a ∈ live → Reach is bs (p.free a) (live.erase a)
  | write {p live a} (v : Option Addr) : Reach is bs p live → a ∈ live → Reach is bs (p.write a v) live

end Verif.Irstlm
