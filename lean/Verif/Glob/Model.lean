import Verif.Utf8.Model

/-!
Model of `SegmentGlob` (`common/segment_glob.cpp`).

The C++ walks two `const char*` pointers over zero-terminated strings.  A pointer is modelled by
the list of the bytes from it to the terminating zero.  Reading past the terminating zero inside
`utf8::unchecked::next` (truncated multi-byte sequence) is undefined behaviour: `none`.
-/
set_option linter.unusedVariables false

namespace Verif.Glob
open Verif

/-- The bytes seen through `c_str()`: up to the first zero byte. -/
def cstr (s : Str) : Str := s.takeWhile (· ≠ 0)

/-- `checkIfFixed_`, segment_glob.cpp 65-68. -/
def isFixed (glob : Str) : Bool := !glob.any (fun b => b == B.star || b == B.quest)

/-- segment_glob.cpp 51-54: skip stars, then the glob must be used up. -/
def finish : Str → Bool
  | [] => true
  | b :: g => if b = B.star then finish g else false

/-- The second loop, segment_glob.cpp 32-49, then 51-54.  `mp`, `cp` are the saved positions.
`h` records that `g` runs inside the part of the glob after the last star. -/
def loop2 (mp cp g s : Str) (h : g.length ≤ mp.length) : Option Bool :=
  match s with
  | [] => some (finish g)
  | c :: s' =>
    match hg : g with
    | [] =>
      -- `*g` is the terminating zero, different from `*s`: line 46-47
      match cp with
      | [] => some (finish mp)
      | d :: cp' => loop2 mp cp' mp (d :: cp') (Nat.le_refl _)
    | x :: g' =>
      if x = B.star then
        if g' = [] then some true
        else loop2 g' s' g' (c :: s') (Nat.le_refl _)
      else if x = B.quest then
        match Utf8.next (c :: s') with
        | none => none
        | some (_, s'') => loop2 mp cp g' s'' (by simp at h; omega)
      else if x = c then loop2 mp cp g' s' (by simp at h; omega)
      else
        match cp with
        | [] => some (finish mp)
        | d :: cp' => loop2 mp cp' mp (d :: cp') (Nat.le_refl _)
termination_by (mp.length, cp.length, g.length)
decreasing_by
  all_goals simp_wf
  all_goals first
    | (apply Prod.Lex.left; simp at h; omega)
    | (apply Prod.Lex.right; apply Prod.Lex.left; simp; done)
    | (apply Prod.Lex.right; apply Prod.Lex.right; simp; done)

/-- The first loop, segment_glob.cpp 20-30, then the second.  When it is left with `*s` nonzero,
`*g` is a star, so the second loop sets `mp` and `cp` before using them; the initial values
passed here (C++: uninitialised) are never read. -/
def loop1 (g s : Str) : Option Bool :=
  match s with
  | [] => some (finish g)
  | c :: s' =>
    match g with
    | [] => some false
    | x :: g' =>
      if x = B.star then loop2 (x :: g') [] (x :: g') (c :: s') (Nat.le_refl _)
      else if x ≠ c ∧ x ≠ B.quest then some false
      else if x = B.quest then
        match Utf8.next (c :: s') with
        | none => none
        | some (_, s'') => loop1 g' s''
      else loop1 g' s'
termination_by g.length

/-- `SegmentGlob::matches`, segment_glob.cpp 9-55. -/
def «matches» (glob segment : Str) : Option Bool :=
  if isFixed glob then some (segment == glob)
  else loop1 (cstr glob) (cstr segment)

end Verif.Glob
