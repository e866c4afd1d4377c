import Verif.Binary.Model

/-!
Model of `tools/datastructures/lexica/monotonic_vector.hpp`, the compressed vector of positions.

The template parameters are kept as parameters: `posBytes` and `lenBytes` are the sizes of `PosT` and
`LenT` in bytes, `step` is `stepSize`.  Arithmetic on `PosT` is modulo `2^(8*posBytes)`.  An access
outside a vector (undefined behaviour) is `none`.
-/
namespace Verif.MonotonicVector
open Binary

/-- Template parameters (monotonic_vector.hpp:19). -/
structure Params where
  posBytes : Nat
  lenBytes : Nat
  step : Nat

/-- Number of values of `PosT`. -/
def Params.W (p : Params) : Nat := 256 ^ p.posBytes

/-- `std::numeric_limits<LenT>::max()`. -/
def Params.lmax (p : Params) : Nat := 256 ^ p.lenBytes - 1

/-- monotonic_vector.hpp:22-24 (the members). -/
structure MV where
  diffs : List Nat
  anchors : List Nat
  rests : List (Nat × Nat)
deriving DecidableEq, Repr

/-- The default constructor. -/
def empty : MV := ⟨[], [], []⟩

/-- monotonic_vector.hpp:29-31 -/
def size (p : Params) (v : MV) : Nat := (v.diffs.length + v.anchors.length) % p.W

/-- monotonic_vector.hpp:42-49: the overflow found for difference `k`.  `std::lower_bound` with
`(k, 0)` on the sorted table is the first entry that is not less than `(k, 0)`, that is whose index is
at least `k`. -/
def restAt (rests : List (Nat × Nat)) (k : Nat) : Nat :=
  match rests.find? (fun e => decide (k ≤ e.1)) with
  | some e => if e.1 = k then e.2 else 0
  | none => 0

/-- monotonic_vector.hpp:39-51: the loop from `k` with `cnt` rounds to go and accumulator `j`. -/
def sumDiffs (p : Params) (v : MV) : Nat → Nat → Nat → Option Nat
  | _, 0, j => some j
  | k, cnt+1, j =>
    match v.diffs[k]? with
    | none => none
    | some d =>
      sumDiffs p v (k + 1) cnt (if d = p.lmax then (j + d + restAt v.rests k) % p.W else (j + d) % p.W)

/-- monotonic_vector.hpp:33-54 -/
def get (p : Params) (v : MV) (i : Nat) : Option Nat :=
  match v.anchors[i / p.step]? with
  | none => none
  | some j =>
    if i % p.step ≠ 0 then sumDiffs p v ((i / p.step) * (p.step - 1)) (i % p.step) j else some j

/-- monotonic_vector.hpp:60-62 -/
def back (p : Params) (v : MV) : Option Nat := get p v ((size p v + p.W - 1) % p.W)

/-- monotonic_vector.hpp:64-80; the difference is computed modulo the range of `PosT`. -/
def pushBack (p : Params) (v : MV) (i : Nat) : Option MV :=
  if size p v % p.step = 0 then some { v with anchors := v.anchors ++ [i] }
  else
    match back p v with
    | none => none
    | some last =>
      let diff := (i + p.W - last) % p.W
      if diff ≤ p.lmax then some { v with diffs := v.diffs ++ [diff] }
      else some { v with rests := v.rests ++ [(v.diffs.length % p.W, diff - p.lmax)],
                         diffs := v.diffs ++ [p.lmax] }

/-- Pushing a sequence of values. -/
def pushAll (p : Params) : MV → List Nat → Option MV
  | v, [] => some v
  | v, x :: xs =>
    match pushBack p v x with
    | none => none
    | some v => pushAll p v xs

/-- monotonic_vector.hpp:98-110 -/
def save (p : Params) (v : MV) : Str :=
  putVector (putInt p.lenBytes) v.diffs ++
  (putVector (putInt p.posBytes) v.anchors ++ putVector (putPair p.posBytes) v.rests)

/-- monotonic_vector.hpp:82-96 -/
def load (p : Params) (s : Str) : Option (MV × Str) := do
  let (d, s) ← getVector (getInt p.lenBytes) s
  let (a, s) ← getVector (getInt p.posBytes) s
  let (r, s) ← getVector (getPair p.posBytes) s
  return (⟨d, a, r⟩, s)

end Verif.MonotonicVector
