import Verif.Basic

/-! What it is to read a file in pieces. -/

namespace Verif.Fex

/-- The pieces of these sizes, one behind the other; the last ones are shorter or empty when the file is
at its end. -/
def pieces (file : List Byte) : List Nat → List (List Byte)
  | [] => []
  | n :: ns => file.take n :: pieces (file.drop n) ns

end Verif.Fex
