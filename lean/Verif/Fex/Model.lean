import Verif.Basic

/-!
Model of `Zlib_Inflater` (fex/fex/Zlib_Inflater.cpp) when it copies: for files that are not
compressed.  The file is what `callback` still gives; `callback` gives as much as was asked for, or all
that is left (`Data_Reader::read_avail`, fex/fex/Data_Reader.cpp).  Errors of reading and failures of
allocation other than that of line 84 are not modelled, and numbers do not overflow.
-/

namespace Verif.Fex

/-- `block_size` (Zlib_Inflater.cpp line 18). -/
def blockSize : Nat := 4096

/-- `buf` and `zbuf`: the size of the buffer, `next_in` as an offset in it (`none` for null), the
`avail_in` bytes there, and `total_out`. -/
structure Inflater where
  size : Nat
  next : Option Nat
  avail : List Byte
  total : Nat

/-- `Zlib_Inflater::end` (Zlib_Inflater.cpp lines 36–48). -/
def ended : Inflater := ⟨0, none, [], 0⟩

/-- `Zlib_Inflater::fill_buf` (Zlib_Inflater.cpp lines 62–69); `none`: `out` is not in the
buffer. -/
def fillBuf (s : Inflater) (file : List Byte) (count : Nat) : Option (Inflater × List Byte) :=
  if s.size < count then none
  else some ({ s with next := some (s.size - count), avail := file.take count }, file.drop count)

/-- `Zlib_Inflater::begin` (Zlib_Inflater.cpp lines 71–96); `room` is whether the allocation of line 81
succeeds. -/
def begin (newSize initial : Nat) (room : Bool) (file : List Byte) : Option (Inflater × List Byte) :=
  let newSize' := if newSize ≠ 0 ∧ room = false then 0 else newSize
  let size := if newSize' = 0 then 4 * blockSize else newSize'
  let initial := if newSize' = 0 then 0 else initial
  fillBuf { ended with size := size } file (if initial ≠ 0 then initial else blockSize)

/-- Whether `set_mode` with `mode_auto` takes the input for compressed (Zlib_Inflater.cpp lines
103–111). -/
def looksGz (s : Inflater) : Bool :=
  decide (2 + 8 + 8 ≤ s.avail.length) && s.avail[0]? == some 0x1f && s.avail[1]? == some 0x8b

/-- The first part of the loop (Zlib_Inflater.cpp lines 213–224): what is copied, and the state. -/
def copyBuffered (s : Inflater) (next remain : Nat) : List Byte × Inflater :=
  let count := min s.avail.length remain
  (s.avail.take count,
    { s with next := some (next + count), avail := s.avail.drop count, total := s.total + count })

/-- The loop for copying (Zlib_Inflater.cpp lines 210–254): the state, the file, and what was
written. -/
def copyLoop : Nat → Inflater → List Byte → Nat → Option (Inflater × List Byte × List Byte)
  | 0, _, _, _ => none
  | fuel + 1, s, file, remain =>
    match s.next with
    | none => none
    | some next =>
      let out := (copyBuffered s next remain).1
      let s := (copyBuffered s next remain).2
      let next := next + out.length
      let remain := remain - out.length
      if s.avail = [] ∧ next < s.size then some (ended, file, out)
      else if s.size ≤ remain + s.total % blockSize then
        let more := file.take remain
        let file := file.drop remain
        let s := { s with total := s.total + more.length }
        if remain - more.length ≠ 0 then some (ended, file, out ++ more)
        else some (s, file, out ++ more)
      else if remain = 0 then some (s, file, out)
      else
        match fillBuf s file (s.size - s.total % blockSize) with
        | none => none
        | some (s, file) =>
          (copyLoop fuel s file remain).map fun r => (r.1, r.2.1, out ++ r.2.2)

/-- `Zlib_Inflater::read` (Zlib_Inflater.cpp lines 166–259) when nothing is deflated. -/
def read (s : Inflater) (file : List Byte) (count : Nat) :
    Option (Inflater × List Byte × List Byte) :=
  if count ≠ 0 ∧ s.next ≠ none then copyLoop (file.length + 2) s file count
  else some (s, file, [])

/-- A series of calls of `read`. -/
def readAll (s : Inflater) (file : List Byte) : List Nat → Option (List (List Byte))
  | [] => some []
  | count :: counts =>
    match read s file count with
    | none => none
    | some (s, file, out) => (readAll s file counts).map fun outs => out :: outs

end Verif.Fex
