import Verif.Basic

/-!
Model of `StringFrag` (`common/string_frag.hpp`, `common/string_frag.cpp`) as compiled by default,
without `STRING_FRAG_VALIDATION` (`CMakeLists.txt` 302-307).

`src_` is a reference; the model keeps the current value of the string referred to, and `own`
records that it refers to the fragment's own `contents_`.  (A copy of a stored fragment keeps
referring to the original's `contents_`; the model keeps its value at the time of copying.)
`size_t` arithmetic is modulo 2^64.  `none` is a `std::out_of_range` exception.
-/
namespace Verif.StringFrag
open Verif

/-- Number of `size_t` values. -/
def W : Nat := 2 ^ 64

/-- `std::string::npos`. -/
def npos : Nat := 2 ^ 64 - 1

/-- `std::string::substr`. -/
def stdSubstr (s : Str) (pos n : Nat) : Option Str :=
  if pos > s.length then none else some ((s.drop pos).take n)

/-- `std::string::find(char, pos)`. -/
def stdFind (s : Str) (c : Byte) (pos : Nat) : Nat :=
  match (s.drop pos).findIdx? (· == c) with
  | some i => pos + i
  | none => npos

/-- The members, string_frag.hpp 100-106. -/
structure Frag where
  contents : Str
  src : Str
  own : Bool
  begin_ : Nat
  len : Nat
  deriving DecidableEq

/-- `stored_`, string_frag.hpp 108-110. -/
def Frag.stored (f : Frag) : Bool := f.begin_ == npos

/-- `StringFrag(contents)` and `StringFrag()`, string_frag.hpp 17-22, 73-80. -/
def store (s : Str) : Frag := ⟨s, s, true, npos, npos⟩

/-- `StringFrag(src, begin, len)`, string_frag.hpp 31-50. -/
def ofText (src : Str) (begin_ len : Nat) : Frag := ⟨[], src, false, begin_, len⟩

/-- `StringFrag(sf, begin, len)`, string_frag.hpp 52-71. -/
def ofFrag (sf : Frag) (begin_ len : Nat) : Frag :=
  ⟨[], sf.src, false, (sf.begin_ + begin_) % W, len⟩

/-- The copy constructor, string_frag.hpp 24-29. -/
def copy (f : Frag) : Frag := { f with own := false }

/-- `str`, string_frag.cpp 40-52. -/
def str (f : Frag) : Option Str :=
  if f.stored then some f.contents else stdSubstr f.src f.begin_ f.len

/-- `operator[]`, string_frag.cpp 24-37 (`none`: out of bounds). -/
def charAt (f : Frag) (pos : Nat) : Option Byte :=
  if f.stored then f.contents[pos]? else f.src[(f.begin_ + pos) % W]?

/-- `substr`, string_frag.cpp 55-57. -/
def substr (f : Frag) (pos n : Nat) : Option Str :=
  match str f with
  | none => none
  | some s => stdSubstr s pos n

/-- `append` of another object, string_frag.cpp 60-87.  Line 79 sets `contents_` of a reference to
an abbreviation of (at most) four characters. -/
def append (f other : Frag) : Option Frag :=
  if !f.stored && !other.stored && f.src == other.src && (f.begin_ + f.len) % W == other.begin_ then
    match stdSubstr f.src f.begin_ (min ((f.len + other.len) % W) 4) with
    | none => none
    | some abbr => some { f with
        len := (f.len + other.len) % W
        contents := abbr
        src := if f.own then abbr else f.src }
  else if f.contents = [] then some (copy other)
  else match str f, str other with
    | some s, some t => some { f with
        contents := s ++ t
        src := if f.own then s ++ t else f.src
        begin_ := npos }
    | _, _ => none

/-- `find`, string_frag.cpp 90-102. -/
def find (f : Frag) (c : Byte) (pos : Nat) : Nat :=
  if f.stored then stdFind f.contents c pos
  else (stdFind f.src c ((f.begin_ + pos) % W) + W - f.begin_) % W

/-- `length`, string_frag.cpp 105-110. -/
def length (f : Frag) : Nat := if f.stored then f.contents.length else f.len

/-- The bytes readable from `data()`, string_frag.cpp 113-118. -/
def data (f : Frag) : Str := if f.stored then f.contents else f.src.drop f.begin_

end Verif.StringFrag
