import Verif.BitStream.Model

/-!
Model of `CanonicalHuffman` (`tools/lemmatizers/lamerlemma/canonical_huffman.hpp:11-233`).

The heap functions of the standard library are parameters (`HeapOps`); the theorems assume only what
the C++ standard says about them (`HeapOps.Standard`), so the order of elements of equal weight
is arbitrary.  `std::vector`s are lists.  Reading outside a vector is `none` in `read`, `place` and `put`;
in `calcLengths` an index outside the array reads 0 and writes nothing (the proofs show that all indices are
inside).  `boost::unordered_map::operator[]` is a total function with default value `(0, 0)`.
-/
namespace Verif.Huffman
open Verif

/-- `std::make_heap`, `std::pop_heap` and `std::push_heap` with the comparison "heavier first" of
canonical_huffman.hpp:22-31; the first argument gives the weight of an element. -/
structure HeapOps where
  make : (Nat → Nat) → List Nat → List Nat
  pop : (Nat → Nat) → List Nat → List Nat
  push : (Nat → Nat) → List Nat → List Nat

/-- canonical_huffman.hpp:25-30: `m_vec[a]`. -/
def weightOf (A : List Nat) (a : Nat) : Nat := A[a]?.getD 0

/-- One round of canonical_huffman.hpp:61-76; `h` is the heap size after the decrement. -/
def mergeStep (ops : HeapOps) (A : List Nat) (h : Nat) : List Nat :=
  let m1 := weightOf A 0
  let A := ops.pop (weightOf A) (A.take (h + 1)) ++ A.drop (h + 1)
  let m2 := weightOf A 0
  let A := ops.pop (weightOf A) (A.take h) ++ A.drop h
  let A := A.set h ((weightOf A m1 + weightOf A m2) % 2 ^ 64)
  let A := A.set (h - 1) h
  let A := (A.set m2 h).set m1 h
  ops.push (weightOf A) (A.take h) ++ A.drop h

/-- canonical_huffman.hpp:61-76 -/
def mergeLoop (ops : HeapOps) : Nat → List Nat → List Nat
  | 0, A => A
  | 1, A => A
  | h+2, A => mergeLoop ops (h + 1) (mergeStep ops A (h + 1))

/-- canonical_huffman.hpp:79-80, from index `i` on for `cnt` rounds. -/
def depthLoop : Nat → Nat → List Nat → List Nat
  | _, 0, A => A
  | i, cnt+1, A => depthLoop (i + 1) cnt (A.set i (weightOf A (weightOf A i) + 1))

/-- canonical_huffman.hpp:33-85: the code lengths (`uint16_t`). -/
def calcLengths (ops : HeapOps) (freqs : List Nat) : List Nat :=
  let n := freqs.length
  if n = 1 then [1]
  else
    let A := List.range' n n ++ freqs
    let A := ops.make (weightOf A) (A.take n) ++ A.drop n
    let A := mergeLoop ops n A
    let A := A.set 1 0
    let A := depthLoop 2 (2 * n - 2) A
    ((A.drop n).take n).map (· % 65536)

/-- canonical_huffman.hpp:89-96 -/
def numLengths : List Nat → List Nat → List Nat
  | [], num => num
  | l :: ls, num =>
    let num := if num.length ≤ l then num ++ List.replicate (l + 1 - num.length) 0 else num
    numLengths ls (num.set l (num[l]?.getD 0 + 1))

/-- canonical_huffman.hpp:98-101 for the entries of `num` still to add, from running sum `acc`. -/
def lengthIndexes : List Nat → Nat → List Nat
  | [], _ => []
  | x :: num, acc => acc :: lengthIndexes num (acc + x)

/-- canonical_huffman.hpp:106-107: the loop from `l` down to 1. -/
def firstCodesLoop (num : List Nat) : Nat → List Nat → List Nat
  | 0, fc => fc
  | l+1, fc =>
    firstCodesLoop num l (fc.set (l + 1) ((fc[l + 2]?.getD 0 + num[l + 2]?.getD 0) / 2))

/-- canonical_huffman.hpp:103-107 -/
def firstCodes (num : List Nat) : List Nat :=
  firstCodesLoop num (num.length - 1 - 1) (List.replicate num.length 0)

/-- canonical_huffman.hpp:112-123: placing the symbols; a write outside `t_symbols` is `none`. -/
def place {α : Type} (idx first : List Nat) :
    List (α × Nat) → List Nat → List (Option α) → Option (List (Option α))
  | [], _, t => some t
  | (d, l) :: rest, next, t =>
    let pos := idx[l]?.getD 0 + (next[l]?.getD 0 - first[l]?.getD 0)
    if pos < t.length then place idx first rest (next.set l (next[l]?.getD 0 + 1)) (t.set pos (some d))
    else none

/-- canonical_huffman.hpp:15-20: the coder.  A cell of `symbols` that was never written holds a
default-constructed value and is `none`. -/
structure Coder (α : Type) where
  symbols : List (Option α)
  first : List Nat
  index : List Nat

/-- canonical_huffman.hpp:143-154 (constructor), without the encoding map. -/
def build {α : Type} (ops : HeapOps) (table : List (α × Nat)) : Option (Coder α) :=
  let lengths := calcLengths ops (table.map (·.2))
  let num := numLengths lengths []
  let first := firstCodes num
  let index := lengthIndexes num 0
  (place index first ((table.map (·.1)).zip lengths) first (List.replicate lengths.length none)).map
    fun t => ⟨t, first, index⟩

/-- canonical_huffman.hpp:132-133: the number of codes of length `l`. -/
def numCodes {α : Type} (c : Coder α) (l : Nat) : Nat :=
  (if l + 1 < c.index.length then c.index[l + 1]?.getD 0 else c.symbols.length) - c.index[l]?.getD 0

/-- canonical_huffman.hpp:135-139: the assignments for one length `l`, rounds `i ..< i + cnt`. -/
def mapRow {α : Type} [DecidableEq α] (c : Coder α) (l : Nat) : Nat → Nat → (α → Nat × Nat) → α → Nat × Nat
  | _, 0, m => m
  | i, cnt+1, m =>
    mapRow c l (i + 1) cnt
      (match (c.symbols[c.index[l]?.getD 0 + i]?).join with
        | some d => fun x => if x = d then (l, i) else m x
        | none => m)

/-- canonical_huffman.hpp:130-140: lengths `l ..< l + cnt`. -/
def mapRows {α : Type} [DecidableEq α] (c : Coder α) : Nat → Nat → (α → Nat × Nat) → α → Nat × Nat
  | _, 0, m => m
  | l, cnt+1, m => mapRows c (l + 1) cnt (mapRow c l 0 (numCodes c l) m)

/-- canonical_huffman.hpp:128-141 -/
def codeMap {α : Type} [DecidableEq α] (c : Coder α) : α → Nat × Nat :=
  mapRows c 1 (c.index.length - 1) (fun _ => (0, 0))

/-- The bits of `code` from `l-1` down to 0. -/
def bitsDown (code : Nat) : Nat → List Bool
  | 0 => []
  | j+1 => code.testBit j :: bitsDown code j

/-- canonical_huffman.hpp:164-174: the bits written; a shift of a `uint64_t` by 64 or more is
undefined. -/
def put {α : Type} [DecidableEq α] (c : Coder α) (d : α) : Option (List Bool) :=
  let (l, i) := codeMap c d
  if l ≤ 64 then some (bitsDown (c.first[l]?.getD 0 + i) l) else none

/-- Writing a sequence of symbols through the bit wrapper. -/
def putAll {α : Type} [DecidableEq α] (c : Coder α) : List α → BitStream.W → Option BitStream.W
  | [], w => some w
  | d :: ds, w => (put c d).bind fun bs => putAll c ds (BitStream.putAll w bs)

/-- canonical_huffman.hpp:183-189: the loop, with code `code` of length `len` read so far. -/
def readLoop {α : Type} (c : Coder α) (code len : Nat) (w : BitStream.W) : Option (α × BitStream.W) :=
  if h : len < c.first.length then
    if code < c.first[len] then
      let (b, w) := BitStream.read w
      readLoop c (2 * code + b.toNat) (len + 1) w
    else
      match (c.symbols[c.index[len]?.getD 0 + (code - c.first[len])]?).join with
      | some d => some (d, w)
      | none => none
  else none
termination_by c.first.length - len

/-- The outcome of `Read`: undefined behaviour, or a possibly missing symbol. -/
abbrev ReadResult (α : Type) := Option (Option α × BitStream.W)

/-- canonical_huffman.hpp:176-192 -/
def read {α : Type} (c : Coder α) (w : BitStream.W) : ReadResult α :=
  if BitStream.tellFromEnd w ≠ 0 then
    let (b, w) := BitStream.read w
    (readLoop c b.toNat 1 w).map fun (d, w) => (some d, w)
  else some (none, w)

/-- Reading `n` symbols. -/
def readAll {α : Type} (c : Coder α) : Nat → BitStream.W → Option (List α × BitStream.W)
  | 0, w => some ([], w)
  | n+1, w =>
    match read c w with
    | some (some d, w) => (readAll c n w).map fun (ds, w) => (d :: ds, w)
    | _ => none

end Verif.Huffman
