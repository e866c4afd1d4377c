import Verif.Basic

/-!
Model of the bundled UTF-8 library (`utf8/utf8/core.h`, `utf8/utf8/unchecked.h`) and of
`symbolLength` (`common/string_helpers.cpp`).

Code points and intermediate values are `Nat`; the C++ code uses `uint32_t`, and the
largest intermediate value is `0xff << 18 < 2^32`, so no wraparound happens.  A byte range
`[it, end)` is the list of the bytes still to be read.
-/
set_option linter.unusedVariables false

namespace Verif.Utf8
open Verif

/-- `internal::is_trail`, core.h 68-72. -/
def isTrail (b : Byte) : Bool := b.toNat >>> 6 == 2

/-- `internal::is_surrogate`, core.h 87-90. -/
def isSurrogate (cp : Nat) : Bool := decide (0xd800 ≤ cp) && decide (cp ≤ 0xdfff)

/-- `internal::is_code_point_valid`, core.h 93-96. -/
def isCodePointValid (cp : Nat) : Bool := decide (cp ≤ 0x10ffff) && !isSurrogate cp

/-- `internal::sequence_length`, core.h 98-113. -/
def sequenceLength (lead : Byte) : Nat :=
  if lead.toNat < 0x80 then 1
  else if lead.toNat >>> 5 = 0x6 then 2
  else if lead.toNat >>> 4 = 0xe then 3
  else if lead.toNat >>> 3 = 0x1e then 4
  else 0

/-- `internal::is_overlong_sequence`, core.h 115-132. -/
def isOverlong (cp length : Nat) : Bool :=
  if cp < 0x80 then length != 1
  else if cp < 0x800 then length != 2
  else if cp < 0x10000 then length != 3
  else false

/-- `internal::utf_error` without `UTF8_OK`, core.h 134. -/
inductive Error
  | notEnoughRoom | invalidLead | incompleteSequence | overlongSequence | invalidCodePoint
  deriving DecidableEq, Repr

/-- `internal::get_sequence_1`, core.h 138-147.  The result is the code point and the bytes
after the sequence (the C++ iterator is left on the last byte and incremented by the
caller, core.h 289). -/
def getSequence1 : Str → Except Error (Nat × Str)
  | [] => .error .notEnoughRoom
  | b0 :: s => .ok (b0.toNat, s)

/-- `internal::get_sequence_2`, core.h 149-172. -/
def getSequence2 : Str → Except Error (Nat × Str)
  | b0 :: b1 :: s =>
    if isTrail b1 then
      .ok (((b0.toNat <<< 6) &&& 0x7ff) + (b1.toNat &&& 0x3f), s)
    else .error .incompleteSequence
  | _ => .error .notEnoughRoom

/-- `internal::get_sequence_3`, core.h 174-206. -/
def getSequence3 : Str → Except Error (Nat × Str)
  | b0 :: b1 :: s =>
    if isTrail b1 then
      match s with
      | b2 :: s =>
        if isTrail b2 then
          .ok (((b0.toNat <<< 12) &&& 0xffff) + ((b1.toNat <<< 6) &&& 0xfff)
            + (b2.toNat &&& 0x3f), s)
        else .error .incompleteSequence
      | [] => .error .notEnoughRoom
    else .error .incompleteSequence
  | _ => .error .notEnoughRoom

/-- `internal::get_sequence_4`, core.h 208-249. -/
def getSequence4 : Str → Except Error (Nat × Str)
  | b0 :: b1 :: s =>
    if isTrail b1 then
      match s with
      | b2 :: s =>
        if isTrail b2 then
          match s with
          | b3 :: s =>
            if isTrail b3 then
              .ok (((b0.toNat <<< 18) &&& 0x1fffff) + ((b1.toNat <<< 12) &&& 0x3ffff)
                + ((b2.toNat <<< 6) &&& 0xfff) + (b3.toNat &&& 0x3f), s)
            else .error .incompleteSequence
          | [] => .error .notEnoughRoom
        else .error .incompleteSequence
      | [] => .error .notEnoughRoom
    else .error .incompleteSequence
  | _ => .error .notEnoughRoom

/-- The switch over the sequence length, core.h 265-280. -/
def getSequence (s : Str) : Nat → Except Error (Nat × Str)
  | 1 => getSequence1 s
  | 2 => getSequence2 s
  | 3 => getSequence3 s
  | 4 => getSequence4 s
  | _ => .error .invalidLead

/-- `internal::validate_next`, core.h 251-302.  On failure the iterator is restored, so the
error carries no position.  Called with `it == end` the C++ reads past the end; the callers
in core.h never do that, and the model reports `notEnoughRoom`. -/
def validateNext : Str → Except Error (Nat × Str)
  | [] => .error .notEnoughRoom
  | lead :: s =>
    let length := sequenceLength lead
    if length = 0 then .error .invalidLead
    else match getSequence (lead :: s) length with
      | .error e => .error e
      | .ok (cp, rest) =>
        if isCodePointValid cp then
          if isOverlong cp length then .error .overlongSequence
          else .ok (cp, rest)
        else .error .invalidCodePoint

theorem validateNext_lt {s rest : Str} {cp : Nat} (h : validateNext s = .ok (cp, rest)) :
    rest.length < s.length := by
  match s with
  | [] => simp [validateNext] at h
  | lead :: s =>
    have key : ∀ n p, getSequence (lead :: s) n = .ok p → p.2.length < s.length + 1 := by
      intro n p hp
      unfold getSequence getSequence1 getSequence2 getSequence3 getSequence4 at hp
      repeat' split at hp
      all_goals simp at hp
      all_goals subst_vars
      all_goals simp_all
      all_goals omega
    unfold validateNext at h
    dsimp only at h
    split at h
    · simp at h
    · split at h
      · simp at h
      · rename_i cp' rest' he
        have := key _ _ he
        repeat' split at h
        all_goals simp at h
        obtain ⟨_, rfl⟩ := h
        simpa using this

/-- `find_invalid`, core.h 316-326: the number of bytes before the first invalid sequence. -/
def findInvalid (s : Str) : Nat :=
  match h : validateNext s with
  | .error _ => 0
  | .ok (_, rest) => (s.length - rest.length) + findInvalid rest
termination_by s.length
decreasing_by exact validateNext_lt h

/-- `is_valid`, core.h 328-332. -/
def isValid (s : Str) : Bool := findInvalid s == s.length

/-- `static_cast<uint8_t>`. -/
def toByte (n : Nat) : Byte := UInt8.ofNat n

/-- `unchecked::append`, unchecked.h 37-58: the bytes written. -/
def append (cp : Nat) : Str :=
  if cp < 0x80 then [toByte cp]
  else if cp < 0x800 then
    [toByte ((cp >>> 6) ||| 0xc0), toByte ((cp &&& 0x3f) ||| 0x80)]
  else if cp < 0x10000 then
    [toByte ((cp >>> 12) ||| 0xe0), toByte (((cp >>> 6) &&& 0x3f) ||| 0x80),
      toByte ((cp &&& 0x3f) ||| 0x80)]
  else
    [toByte ((cp >>> 18) ||| 0xf0), toByte (((cp >>> 12) &&& 0x3f) ||| 0x80),
      toByte (((cp >>> 6) &&& 0x3f) ||| 0x80), toByte ((cp &&& 0x3f) ||| 0x80)]

/-- `unchecked::next`, unchecked.h 66-95; `none` = reading past the end (undefined). An
invalid lead byte falls through the switch and is returned as it is. -/
def next : Str → Option (Nat × Str)
  | [] => none
  | b0 :: s =>
    match sequenceLength b0, s with
    | 2, b1 :: s => some (((b0.toNat <<< 6) &&& 0x7ff) + (b1.toNat &&& 0x3f), s)
    | 3, b1 :: b2 :: s =>
      some (((b0.toNat <<< 12) &&& 0xffff) + ((b1.toNat <<< 6) &&& 0xfff) + (b2.toNat &&& 0x3f), s)
    | 4, b1 :: b2 :: b3 :: s =>
      some (((b0.toNat <<< 18) &&& 0x1fffff) + ((b1.toNat <<< 12) &&& 0x3ffff)
        + ((b2.toNat <<< 6) &&& 0xfff) + (b3.toNat &&& 0x3f), s)
    | 2, _ => none
    | 3, _ => none
    | 4, _ => none
    | _, s => some (b0.toNat, s)

theorem next_lt {s rest : Str} {cp : Nat} (h : next s = some (cp, rest)) :
    rest.length < s.length := by
  unfold next at h
  repeat' split at h
  all_goals simp at h
  all_goals (obtain ⟨_, rfl⟩ := h; simp; try omega)

/-- The backward scan of `unchecked::prior`, unchecked.h 106: `while (is_trail(*(--it)));`.
`before` are the bytes before the iterator in reverse order, `after` those from it on. -/
def priorScan : Str → Str → Option (Str × Str)
  | [], _ => none
  | b :: before, after =>
    if isTrail b then priorScan before (b :: after) else some (before, b :: after)

/-- `unchecked::prior`, unchecked.h 103-109: code point, bytes before (reversed), bytes from
the new iterator position on. -/
def prior (before after : Str) : Option (Nat × Str × Str) :=
  match priorScan before after with
  | none => none
  | some (before', after') =>
    match next after' with
    | none => none
    | some (cp, _) => some (cp, before', after')

/-- `unchecked::utf32to8`, unchecked.h 165-172. -/
def utf32to8 : List Nat → Str
  | [] => []
  | cp :: cps => append cp ++ utf32to8 cps

/-- `unchecked::utf8to32`, unchecked.h 174-181; `none` = reading past the end. -/
def utf8to32 (s : Str) : Option (List Nat) :=
  if s = [] then some []
  else match h : next s with
    | none => none
    | some (cp, rest) => (utf8to32 rest).map (cp :: ·)
termination_by s.length
decreasing_by exact next_lt h

/-- `unchecked::distance`, unchecked.h 125-133. -/
def distance (s : Str) : Option Nat :=
  if s = [] then some 0
  else match h : next s with
    | none => none
    | some (_, rest) => (distance rest).map (· + 1)
termination_by s.length
decreasing_by exact next_lt h

/-- `unchecked::advance`, unchecked.h 118-123. -/
def advance (s : Str) : Nat → Option Str
  | 0 => some s
  | n + 1 => match next s with
    | none => none
    | some (_, rest) => advance rest n

/-- `symbolLength`, `common/string_helpers.cpp` 18-22. -/
def symbolLength (lead : Byte) : Nat :=
  if sequenceLength lead > 0 then sequenceLength lead else 1

/-- `unchecked::utf8to16` for one code point, unchecked.h 154-160. -/
def cpTo16 (cp : Nat) : List Nat :=
  if cp > 0xffff then
    [((cp >>> 10) + (0xd800 - (0x10000 >>> 10))) % 65536, ((cp &&& 0x3ff) + 0xdc00) % 65536]
  else [cp % 65536]

/-- `unchecked::utf8to16`, unchecked.h 150-163. -/
def utf8to16 (s : Str) : Option (List Nat) :=
  if s = [] then some []
  else match h : next s with
    | none => none
    | some (cp, rest) => (utf8to16 rest).map (cpTo16 cp ++ ·)
termination_by s.length
decreasing_by exact next_lt h

/-- `unchecked::utf16to8`, unchecked.h 135-148.  `SURROGATE_OFFSET` (core.h 53) is computed in
`uint32_t`, i.e. modulo `2^32`.  A lead surrogate at the end reads past the end (`none`). -/
def utf16to8 : List Nat → Option Str
  | [] => some []
  | u :: us =>
    if 0xd800 ≤ u ∧ u ≤ 0xdbff then
      match us with
      | [] => none
      | t :: us' =>
        (utf16to8 us').map
          (append (((u <<< 10) + t + (0x10000 + 2^32 - (0xd800 <<< 10) - 0xdc00)) % 2^32) ++ ·)
    else (utf16to8 us).map (append u ++ ·)

end Verif.Utf8
