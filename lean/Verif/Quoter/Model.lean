import Verif.Basic

/-!
Model of the quoters.

* `common/utt_like_quoter.cpp` 5-31 (`UTTLikeQuoter::doEscape`), 33-68 (`doUnescape`)
* `common/psi_quoter.cpp` 4 (`PsiQuoter` = UTT-like with additional quotation `"#"`)
* `formats/utt/utt_quoter.cpp` 4 (`UTTQuoter` = UTT-like, no additional quotations)
* `formats/bracketing/bracketing-writer/bracketing_quoter.cpp` 8-45
* `common/escaping.cpp` 4-12 (`Escaping::isEscaped`)
-/
namespace Verif.Quoter
open Verif

/-- The string appended to `result` for one input character.
`common/utt_like_quoter.cpp` 8-28.  The inner `while (j)` loop (17-26) looks for the
character in `additionalQuotations_` from the back; only whether it occurs matters. -/
def escapeByte (q : Str) (b : Byte) : Str :=
  if b = B.space then [B.underscore]
  else if b = B.nl then [B.backslash, B.n]
  else if b = B.tab then [B.backslash, B.t]
  else if b = B.cr then [B.backslash, B.r]
  else if b = B.underscore then [B.backslash, B.underscore]
  else if b = B.star then [B.backslash, B.star]
  else if b = B.backslash then [B.backslash, B.backslash]
  else if q.contains b then [B.backslash, b]
  else [b]

/-- `UTTLikeQuoter::doEscape`, `common/utt_like_quoter.cpp` 5-31. -/
def escape (q : Str) : Str → Str
  | [] => []
  | b :: s => escapeByte q b ++ escape q s

/-- The inner switch of `doUnescape` (`common/utt_like_quoter.cpp` 41-59): the character
denoted by the one following a backslash; `none` = `QuoterException`. -/
def unescapeByte (q : Str) (b : Byte) : Option Byte :=
  if b = B.n then some B.nl
  else if b = B.t then some B.tab
  else if b = B.r then some B.cr
  else if b = B.underscore then some B.underscore
  else if b = B.star then some B.star
  else if b = B.backslash then some B.backslash
  else if q.contains b then some b
  else none

/-- `UTTLikeQuoter::doUnescape`, `common/utt_like_quoter.cpp` 33-68;
`none` = `QuoterException`. -/
def unescape (q : Str) : Str → Option Str
  | [] => some []
  | b :: s =>
    if b = B.underscore then (unescape q s).map (B.space :: ·)
    else if b = B.backslash then
      match s with
      | [] => none
      | c :: s' =>
        match unescapeByte q c with
        | none => none
        | some d => (unescape q s').map (d :: ·)
    else (unescape q s).map (b :: ·)

/-- `PsiQuoter`, `common/psi_quoter.cpp` 4. -/
def psiQuotations : Str := [B.hash]

/-- `UTTQuoter`, `formats/utt/utt_quoter.cpp` 4. -/
def uttQuotations : Str := []

/-- `BracketingQuoter::doEscape`, `bracketing_quoter.cpp` 8-20, one character. -/
def brEscapeByte (b : Byte) : Str :=
  if b = B.nl then [B.backslash, B.n]
  else if b = B.tab then [B.backslash, B.t]
  else if b = B.cr then [B.backslash, B.r]
  else if b = B.backslash then [B.backslash, B.backslash]
  else [b]

/-- `BracketingQuoter::doEscape`, `bracketing_quoter.cpp` 8-20. -/
def brEscape : Str → Str
  | [] => []
  | b :: s => brEscapeByte b ++ brEscape s

/-- `BracketingQuoter::doUnescape`, `bracketing_quoter.cpp` 23-45.  An unknown character
after a backslash is silently dropped (line 36 `default: break;`); a trailing backslash
throws (`none`). -/
def brUnescape : Str → Option Str
  | [] => some []
  | b :: s =>
    if b = B.backslash then
      match s with
      | [] => none
      | c :: s' =>
        if c = B.n then (brUnescape s').map (B.nl :: ·)
        else if c = B.t then (brUnescape s').map (B.tab :: ·)
        else if c = B.r then (brUnescape s').map (B.cr :: ·)
        else if c = B.backslash then (brUnescape s').map (B.backslash :: ·)
        else brUnescape s'
    else (brUnescape s).map (b :: ·)

/-- Index of the last character of `s` that is not a backslash
(`std::string::find_last_not_of('\\', pos-1)` on `s.take pos`); `none` = `npos`. -/
def findLastNotBackslash (s : Str) : Nat → Option Nat
  | 0 => none
  | p + 1 => if s[p]? = some B.backslash then findLastNotBackslash s p else some p

/-- `Escaping::isEscaped`, `common/escaping.cpp` 4-12 (for `pos ≤ s.size()`). -/
def isEscaped (s : Str) (pos : Nat) : Bool :=
  if pos = 0 then false
  else match findLastNotBackslash s pos with
    | none => pos % 2 == 1
    | some last => (pos - last) % 2 == 0

end Verif.Quoter
