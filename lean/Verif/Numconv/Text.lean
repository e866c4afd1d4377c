import Verif.Basic

/-!
# Texts written in the sources

A literal of the sources as the list of its bytes.
-/

namespace Verif.Numconv

open Lean in
/-- The bytes of a literal in the source, which is in UTF-8. -/
macro:max "b!" s:str : term => do
  let els ← s.getString.toUTF8.toList.mapM fun b => `(($(quote b.toNat) : UInt8))
  `(([$(els.toArray),*] : Str))

end Verif.Numconv
