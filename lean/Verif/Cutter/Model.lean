import Verif.Utf8.Model

/-!
Model of `Cutter` (`common/cutter.hpp`, `common/cutter.cpp`): cutting segments under a soft and a
hard length limit.

The text is a plain byte string (`StringType = std::string`).  Positions are `Nat`; `npos` is
`none`.  The limits are `Nat`, 0 meaning "not set".  Sums of a position and a limit are only formed
when the limit is at most the length of the text, so `size_t` does not overflow.
-/
set_option linter.unusedVariables false

namespace Verif.Cutter
open Verif

/-- `isSoftLimitBroken_`/`isHardLimitBroken_`, cutter.cpp 36-50. -/
def isLimitBroken (limit segmentLength : Nat) : Bool := limit != 0 && segmentLength ≥ limit

/-- `areLimitsBroken_`, cutter.cpp 31-34. -/
def areLimitsBroken (soft hard segmentLength : Nat) : Bool :=
  isLimitBroken soft segmentLength || isLimitBroken hard segmentLength

/-- `text[pos]`; the terminating zero at the end (`c_str()`). -/
def charAt (text : Str) (pos : Nat) : Byte := (text[pos]?).getD 0

/-- `findSoftLimitCutPoint_` after the addition of the limit, cutter.hpp 199-206. -/
def softScan (text : Str) (maxCutPoint cutPoint : Nat) : Nat :=
  if h : cutPoint < maxCutPoint then
    if charAt text cutPoint = B.space then cutPoint
    else softScan text maxCutPoint (cutPoint + 1)
  else maxCutPoint
termination_by maxCutPoint - cutPoint

/-- `findSoftLimitCutPoint_`, cutter.hpp 191-207. -/
def findSoft (text : Str) (soft cutPoint maxCutPoint : Nat) : Nat :=
  softScan text maxCutPoint (cutPoint + soft)

theorem symbolLength_pos' (b : Byte) : 0 < Utf8.symbolLength b := by
  unfold Utf8.symbolLength; split <;> omega

/-- The loop of `findHardLimitCutPoint_`, cutter.hpp 223-228. -/
def hardScan (text : Str) (hardLimitPos candidatePos : Nat) : Nat :=
  if h : candidatePos < hardLimitPos then
    if candidatePos + Utf8.symbolLength (charAt text candidatePos) > hardLimitPos then candidatePos
    else hardScan text hardLimitPos (candidatePos + Utf8.symbolLength (charAt text candidatePos))
  else candidatePos
termination_by hardLimitPos - candidatePos
decreasing_by
  have := symbolLength_pos' (charAt text candidatePos)
  omega

/-- `findHardLimitCutPoint_`, cutter.hpp 209-236; `none` is the exception "hard limit is so
small".  (Natural subtraction truncates, as lines 218-221 do explicitly.) -/
def findHard (text : Str) (hard cutPoint : Nat) : Option Nat :=
  let hardLimitPos := cutPoint + hard
  let candidatePos := hardScan text hardLimitPos (hardLimitPos - 4)
  if candidatePos ≤ cutPoint then none else some candidatePos

/-- One round of the loop of `fragmentSegment_`, cutter.hpp 160-181: the next cut point. -/
def nextCut (text : Str) (soft hard pos len cutPoint : Nat) : Option Nat :=
  let currentLength := len - (cutPoint - pos)
  let softCut : Option Nat :=
    if isLimitBroken soft currentLength then some (findSoft text soft cutPoint (pos + len)) else none
  if isLimitBroken hard currentLength then
    match findHard text hard cutPoint with
    | none => none
    | some h => match softCut with
      | some s => some (min s h)
      | none => some h
  else match softCut with
    | some s => some s
    | none => some (pos + len)

theorem softScan_ge (text : Str) (m c : Nat) (k : Nat) (h1 : k < c) (h2 : k < m) :
    k < softScan text m c := by
  fun_induction softScan text m c with
  | case1 c h h3 => exact h1
  | case2 c h h3 ih => exact ih (by omega)
  | case3 c h => exact h2

/-- The loop of `fragmentSegment_` makes progress. -/
theorem nextCut_gt {text : Str} {soft hard pos len cutPoint c : Nat}
    (hlt : cutPoint < pos + len) (h : nextCut text soft hard pos len cutPoint = some c) :
    cutPoint < c := by
  have hs : isLimitBroken soft (len - (cutPoint - pos)) = true →
      cutPoint < findSoft text soft cutPoint (pos + len) := by
    intro hb
    simp [isLimitBroken] at hb
    exact softScan_ge _ _ _ _ (by omega) hlt
  have hh : ∀ c, findHard text hard cutPoint = some c → cutPoint < c := by
    intro c hc
    simp only [findHard] at hc
    split at hc
    · simp at hc
    · simp at hc; omega
  simp only [nextCut] at h
  split at h
  · split at h
    · simp at h
    · rename_i c1 hc1
      have := hh c1 hc1
      split at h
      · rename_i s h3
        split at h3
        · rename_i hb; have := hs hb
          simp at h3 h; subst h3 h; omega
        · simp at h3
      · simp at h; omega
  · split at h
    · rename_i s h3
      split at h3
      · rename_i hb; have := hs hb
        simp at h3 h; omega
      · simp at h3
    · simp at h; omega

/-- The loop of `fragmentSegment_`, cutter.hpp 159-186, from `cutPoint`: the fragments pushed on the
queue (their texts); `none` is the exception. -/
def fragmentLoop (text : Str) (soft hard pos len cutPoint : Nat) : Option (List Str) :=
  if h : cutPoint < pos + len then
    match hc : nextCut text soft hard pos len cutPoint with
    | none => none
    | some c =>
      match fragmentLoop text soft hard pos len c with
      | none => none
      | some rest => some ((text.drop cutPoint).take (c - cutPoint) :: rest)
  else some []
termination_by pos + len - cutPoint
decreasing_by
  have := nextCut_gt h hc
  omega

/-- `fragmentSegment_`, cutter.hpp 150-187. -/
def fragmentSegment (text : Str) (soft hard pos len : Nat) : Option (List Str) :=
  fragmentLoop text soft hard pos len pos

/-- `getFirstItemInFragmentQueue_`, cutter.hpp 133-147: the item's text, the new position and the
queue. -/
def popQueue (text : Str) (pos : Nat) : List Str → Option (Str × Option Nat × List Str)
  | [] => none
  | item :: queue =>
    some (item, if pos + item.length = text.length then none else some (pos + item.length), queue)

/-- `realPositionInText`, cutter.hpp 115-118. -/
def realPosition (text : Str) : Option Nat → Nat
  | none => text.length
  | some p => p

/-- `cutOff`, cutter.hpp 107-131, for an underlying `doCutOff` given by the position it advances
to.  The outer `none` is an exception.  Result: text of the piece, new position, queue. -/
def cutOff (doCut : Nat → Option Nat) (text : Str) (soft hard : Nat) (pos : Nat)
    (queue : List Str) : Option (Str × Option Nat × List Str) :=
  if queue ≠ [] then popQueue text pos queue
  else
    let real := realPosition text (doCut pos)
    if areLimitsBroken soft hard (real - pos) then
      match fragmentSegment text soft hard pos (real - pos) with
      | none => none
      | some queue => popQueue text pos queue
    else some ((text.drop pos).take (real - pos), doCut pos, [])

/-- The loop calling `cutOff` until the position is `npos` or the end of the text
(`Lattice::runCutterOnEdge_`, lattice.cpp 1253-1269); `none` is an exception or exhausted fuel. -/
def run (doCut : Nat → Option Nat) (text : Str) (soft hard : Nat) :
    Nat → Nat → List Str → Option (List Str)
  | 0, _, _ => none
  | fuel + 1, pos, queue =>
    match cutOff doCut text soft hard pos queue with
    | none => none
    | some (piece, none, _) => some [piece]
    | some (piece, some pos', queue') =>
      if pos' < text.length then
        match run doCut text soft hard fuel pos' queue' with
        | none => none
        | some pieces => some (piece :: pieces)
      else some [piece]

end Verif.Cutter
