import Verif.Basic

/-!
Raw binary files: `fwrite`/`fread` of unsigned integers and arrays of them.

A file is the list of bytes still to be read.  The machine is little endian (x86-64), as the toolkit
writes integers in memory order.  `fread` of more bytes than the file holds is a failure (`none`); the
C++ code does not check the result.
-/
namespace Verif.Binary

/-- The memory image of an unsigned integer of `k` bytes, little endian. -/
def putInt : Nat → Nat → Str
  | 0, _ => []
  | k+1, n => UInt8.ofNat (n % 256) :: putInt k (n / 256)

/-- Reading an unsigned integer of `k` bytes. -/
def getInt : Nat → Str → Option (Nat × Str)
  | 0, s => some (0, s)
  | _+1, [] => none
  | k+1, b :: s => (getInt k s).map fun (n, r) => (b.toNat + 256 * n, r)

/-- `fwrite(&v[0], elementSize, v.size(), out)`. -/
def putArray {α : Type} (put : α → Str) (l : List α) : Str := l.flatMap put

/-- `fread(&v[0], elementSize, n, in)`. -/
def getArray {α : Type} (get : Str → Option (α × Str)) : Nat → Str → Option (List α × Str)
  | 0, s => some ([], s)
  | n+1, s => do
    let (x, s) ← get s
    let (xs, s) ← getArray get n s
    return (x :: xs, s)

/-- The usual idiom: size as `size_t` (8 bytes), then the elements. -/
def putVector {α : Type} (put : α → Str) (l : List α) : Str := putInt 8 l.length ++ putArray put l

/-- Reading back: the size, `resize`, then the elements. -/
def getVector {α : Type} (get : Str → Option (α × Str)) (s : Str) : Option (List α × Str) := do
  let (n, s) ← getInt 8 s
  getArray get n s

/-- A `std::pair` of two integers of `k` bytes (no padding). -/
def putPair (k : Nat) (p : Nat × Nat) : Str := putInt k p.1 ++ putInt k p.2

/-- Reading a pair. -/
def getPair (k : Nat) (s : Str) : Option ((Nat × Nat) × Str) := do
  let (a, s) ← getInt k s
  let (b, s) ← getInt k s
  return ((a, b), s)

/-- A `bool` (one byte). -/
def putBool (b : Bool) : Str := [if b then 1 else 0]

/-- Reading a `bool`. -/
def getBool : Str → Option (Bool × Str)
  | [] => none
  | b :: s => some (b != 0, s)

end Verif.Binary
