import Verif.Basic

/-!
Character sets of one byte: the shape of the functions `xxx_mbtowc` and `xxx_wctomb` in `tiniconv/encdec/*.h`.  The
tables are in `Tables.lean`.
-/
namespace Verif.Iconv
open Verif

/-- A branch of `xxx_mbtowc` for the bytes from `lo` up to `hi` (exclusive). -/
inductive DecCase
  /-- `*pwc = (ucs4_t) c` -/
  | same (lo hi : Nat)
  /-- `*pwc = (ucs4_t) c + d` -/
  | plus (lo hi d : Nat)
  /-- `*pwc = (ucs4_t) table[c-lo]` -/
  | table (lo hi : Nat) (t : List Nat)
  /-- the same unless the entry is 0xfffd -/
  | checked (lo hi : Nat) (t : List Nat)

/-- A branch of `xxx_wctomb`. -/
inductive EncCase
  /-- `c = table[wc-lo]` for `wc >= lo && wc < lo+size` -/
  | page (lo : Nat) (t : List Nat)
  /-- `c = wc` for `wc >= lo && wc < hi` -/
  | same (lo hi : Nat)
  /-- `c = b` for `wc == x` -/
  | one (x b : Nat)
  /-- `c = wc-d` for `wc >= lo && wc < hi` -/
  | minus (lo hi d : Nat)

/-- A pair of functions: the branches of `xxx_mbtowc`, the bound for `*r = wc` and the other branches of `xxx_wctomb`. -/
structure OneByte where
  dec : List DecCase
  direct : Nat
  enc : List EncCase

/-- Whether a branch is taken. -/
def DecCase.taken (c : Nat) : DecCase → Bool
  | .same lo hi => decide (lo ≤ c) && decide (c < hi)
  | .plus lo hi _ => decide (lo ≤ c) && decide (c < hi)
  | .table lo hi _ => decide (lo ≤ c) && decide (c < hi)
  | .checked lo hi _ => decide (lo ≤ c) && decide (c < hi)

/-- What it does; `none` is `RET_ILSEQ`. -/
def DecCase.run (c : Nat) : DecCase → Option Nat
  | .same _ _ => some c
  | .plus _ _ d => some (c + d)
  | .table lo _ t => some (t.getD (c - lo) 0)
  | .checked lo _ t => if t.getD (c - lo) 0 ≠ 0xfffd then some (t.getD (c - lo) 0) else none

/-- `xxx_mbtowc`. -/
def OneByte.mbtowc (t : OneByte) (c : Nat) : Option Nat :=
  match t.dec.find? (DecCase.taken c) with
  | none => none
  | some k => k.run c

/-- Whether a branch is taken. -/
def EncCase.taken (wc : Nat) : EncCase → Bool
  | .page lo t => decide (lo ≤ wc) && decide (wc < lo + t.length)
  | .same lo hi => decide (lo ≤ wc) && decide (wc < hi)
  | .one x _ => decide (wc = x)
  | .minus lo hi _ => decide (lo ≤ wc) && decide (wc < hi)

/-- The value of `c`. -/
def EncCase.run (wc : Nat) : EncCase → Nat
  | .page lo t => t.getD (wc - lo) 0
  | .same _ _ => wc
  | .one _ b => b
  | .minus _ _ d => wc - d

/-- `xxx_wctomb`; `none` is `RET_ILUNI`.  (All of these functions need one byte of the output, and are only called
when there is one.) -/
def OneByte.wctomb (t : OneByte) (wc : Nat) : Option Nat :=
  if wc < t.direct then some wc
  else match t.enc.find? (EncCase.taken wc) with
    | none => none
    | some k => if k.run wc ≠ 0 then some (k.run wc) else none

end Verif.Iconv
