import Verif.Zlib.GzSpec

/-! Gzip files (RFC 1952, section 2.2): a series of members, one behind the other. -/

namespace Verif.Fex

open Verif.Zlib (Member)

/-- The members of a file, by their contents; the content of the file is all of them together. -/
inductive GzFile : List Byte → List (List Byte) → Prop
  | last {file out} : Member file out [] → GzFile file [out]
  | next {file out rest outs} : Member file out rest → GzFile rest outs → GzFile file (out :: outs)

end Verif.Fex
