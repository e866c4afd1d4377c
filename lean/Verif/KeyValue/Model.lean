import Verif.StringVector.Model

/-!
Model of `tools/datastructures/lexica/perfect_hash_index.{hpp,cpp}` and
`tools/datastructures/lexica/key_value_store.{hpp,cpp}`.

The minimal perfect hash of the cmph library is a parameter `h` (`cmph_search`), the fingerprint
(`MurmurHash3_x86_32`) a parameter `fp`.  Strings passed as `const char*` are cut at the first NUL.
`StringVector<>` is the model in `Verif.StringVector` with 4-byte positions.
-/
namespace Verif.KeyValue
open Verif Binary

/-- The `strlen` prefix of a string passed through `c_str()`. -/
def cstr (s : Str) : Str := s.takeWhile (· != 0)

/-- `std::vector<unsigned>::resize(n)`, growing. -/
def resize (l : List Nat) (n : Nat) : List Nat := l ++ List.replicate (n - l.length) 0

/-- perfect_hash_index.hpp:45-54, for the keys still to process. -/
def calcFprints (h fp : Str → Nat) : List Str → List Nat → List Nat
  | [], fps => fps
  | k :: ks, fps =>
    calcFprints h fp ks ((if h k ≥ fps.length then resize fps (h k + 1) else fps).set (h k) (fp k))

/-- perfect_hash_index.hpp:67-76 -/
def getHash (h fp : Str → Nat) (fps : List Nat) (key : Str) : Nat :=
  let k := cstr key
  match fps[h k]? with
  | some f => if fp k = f then h k else fps.length
  | none => fps.length

/-- key_value_store.cpp:6-22: the builder after the `add` calls: the keys of the index and
`valuesInOrder_`. -/
structure Builder where
  keys : List Str
  values : StringVector.SV

/-- key_value_store.cpp:6-8 -/
def Builder.empty : Builder := ⟨[], StringVector.empty⟩

/-- key_value_store.cpp:14-19 -/
def Builder.add (b : Builder) (key value : Str) : Option Builder := do
  let v ← StringVector.pushBack 4 b.values value
  return ⟨b.keys ++ [cstr key], v⟩

/-- A sequence of `add` calls. -/
def Builder.addAll : Builder → List (Str × Str) → Option Builder
  | b, [] => some b
  | b, (k, v) :: l => do
    let b ← b.add k v
    b.addAll l

/-- key_value_store.cpp:29-33: filling the translation table; index `i` goes to the cell given by
the hash of the key, an index out of range is `none`. -/
def fillTable (h fp : Str → Nat) (fps : List Nat) : List Str → Nat → List Nat → Option (List Nat)
  | [], _, t => some t
  | k :: ks, i, t =>
    if getHash h fp fps k < t.length then
      fillTable h fp fps ks (i + 1) (t.set (getHash h fp fps k) i)
    else none

/-- key_value_store.cpp:35-37: pushing the values in hash order. -/
def pushValues (values : StringVector.SV) : List Nat → StringVector.SV → Option StringVector.SV
  | [], sv => some sv
  | i :: t, sv => do
    let s ← StringVector.at' 4 values i
    let sv ← StringVector.pushBack 4 sv s
    pushValues values t sv

/-- key_value_store.hpp:32-33: the finished store. -/
structure Store where
  fprints : List Nat
  strings : StringVector.SV

/-- key_value_store.cpp:21-44.  `getSize()` is the number of fingerprints. -/
def build (h fp : Str → Nat) (b : Builder) : Option Store := do
  let fps := calcFprints h fp b.keys []
  let t ← fillTable h fp fps b.keys 0 (List.replicate fps.length 0)
  let sv ← pushValues b.values t StringVector.empty
  return ⟨fps, sv⟩

/-- The outcome of `get`: undefined behaviour, or a possibly missing value. -/
abbrev Result := Option (Option Str)

/-- key_value_store.cpp:46-53 -/
def get (h fp : Str → Nat) (s : Store) (key : Str) : Result :=
  let index := getHash h fp s.fprints key
  if index = s.fprints.length then some none
  else (StringVector.at' 4 s.strings index).map some

/-- perfect_hash_index.cpp:86-92 and key_value_store.cpp:69-72, without the part written by
`cmph_dump` in front. -/
def save (s : Store) : Str := putVector (putInt 4) s.fprints ++ StringVector.save 4 s.strings

/-- perfect_hash_index.cpp:100-107 and key_value_store.cpp:56-61, after `cmph_load`; the assertion
at line 60 is checked. -/
def load (f : Str) : Option (Store × Str) := do
  let (fps, f) ← getVector (getInt 4) f
  let (sv, f) ← StringVector.load 4 f
  if fps.length = StringVector.size 4 sv then return (⟨fps, sv⟩, f) else none

end Verif.KeyValue
