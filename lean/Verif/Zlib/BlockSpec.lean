import Verif.Zlib.DeflateSpec
import Verif.Zlib.LzSpec

/-!
The blocks of a deflate stream (RFC 1951, sections 3.2.3 to 3.2.7).

The rest of the input is a number `s`, whose lowest bit comes first, and the number `t` of bits
that are there.  All is said by relations: what the input says, or that it ends too early
(`more`), or that it makes no sense (`bad`).
-/

namespace Verif.Zlib

/-- What comes next in the input. -/
inductive Outcome (α : Type) where
  /-- a thing, and the rest of the input -/
  | got (a : α) (s t : Nat)
  /-- the input ends too early -/
  | more
  /-- the input makes no sense -/
  | bad

/-- `n` bits as a number, the first bit being the lowest. -/
inductive Number (n s t : Nat) : Outcome Nat → Prop
  | got : n ≤ t → Number n s t (.got (s % 2 ^ n) (s / 2 ^ n) (t - n))
  | more : t < n → Number n s t .more

/-- A code: the input begins with the code of a symbol. -/
inductive Code (type : CodeType) (lens : List Nat) (s t : Nat) : Outcome Meaning → Prop
  | got {sym : Nat} : BeginsWith lens s sym → lens.getD sym 0 ≤ t → meaning type sym ≠ .invalid →
      Code type lens s t
        (.got (meaning type sym) (s / 2 ^ lens.getD sym 0) (t - lens.getD sym 0))
  | invalid {sym : Nat} : BeginsWith lens s sym → lens.getD sym 0 ≤ t →
      meaning type sym = .invalid → Code type lens s t .bad
  | none : (¬ ∃ sym, BeginsWith lens s sym) → 1 ≤ t → Code type lens s t .bad
  | cut {sym : Nat} : BeginsWith lens s sym → t < lens.getD sym 0 → Code type lens s t .more
  | empty : (¬ ∃ sym, BeginsWith lens s sym) → t = 0 → Code type lens s t .more

/-! ### The lengths of the codes of a dynamic block (section 3.2.7) -/

/-- The order in which the lengths of the code for lengths come. -/
def lengthOrder : List Nat :=
  [16, 17, 18, 0, 8, 7, 9, 6, 10, 5, 11, 4, 12, 3, 13, 2, 14, 1, 15]

/-- The lengths of the code for lengths: three bits each, the first `n` in the order above,
those that are not given being zero. -/
def lengthsOfLengths (n s : Nat) : List Nat :=
  (List.range 19).map fun sym =>
    if lengthOrder.idxOf sym < n then s / 2 ^ (3 * lengthOrder.idxOf sym) % 8 else 0

/-- How many extra bits follow a symbol. -/
def extraBits (sym : Nat) : Nat :=
  if sym = 16 then 2 else if sym = 17 then 3 else if sym = 18 then 7 else 0

/-- What a symbol with its extra bits adds to the lengths: itself, the last length repeated, or
zeros.  There may be no last length. -/
def grow (out : List Nat) (sym extra : Nat) : Option (List Nat) :=
  if sym < 16 then some (out ++ [sym])
  else if sym = 16 then out.getLast?.map fun l => out ++ List.replicate (3 + extra) l
  else if sym = 17 then some (out ++ List.replicate (3 + extra) 0)
  else some (out ++ List.replicate (11 + extra) 0)

/-- `n` lengths, of which `out` are there already. -/
inductive Lengths (clens : List Nat) (n : Nat) : List Nat → Nat → Nat → Outcome (List Nat) → Prop
  | done {out s t} : out.length = n → Lengths clens n out s t (.got out s t)
  | cut {out s t sym} : out.length < n → BeginsWith clens s sym →
      t < clens.getD sym 0 + extraBits sym → Lengths clens n out s t .more
  | next {out out' s t sym r} : out.length < n → BeginsWith clens s sym →
      clens.getD sym 0 + extraBits sym ≤ t →
      grow out sym (s / 2 ^ clens.getD sym 0 % 2 ^ extraBits sym) = some out' →
      out'.length ≤ n →
      Lengths clens n out' (s / 2 ^ (clens.getD sym 0 + extraBits sym))
        (t - (clens.getD sym 0 + extraBits sym)) r →
      Lengths clens n out s t r
  | noLast {out s t sym} : out.length < n → BeginsWith clens s sym →
      clens.getD sym 0 + extraBits sym ≤ t →
      grow out sym (s / 2 ^ clens.getD sym 0 % 2 ^ extraBits sym) = none →
      Lengths clens n out s t .bad
  | tooMany {out out' s t sym} : out.length < n → BeginsWith clens s sym →
      clens.getD sym 0 + extraBits sym ≤ t →
      grow out sym (s / 2 ^ clens.getD sym 0 % 2 ^ extraBits sym) = some out' →
      n < out'.length → Lengths clens n out s t .bad

/-- The numbers of literals and lengths, of distances, and of lengths of lengths. -/
def headNumbers (s : Nat) : Nat × Nat × Nat :=
  (s % 32 + 257, s / 32 % 32 + 1, s / 1024 % 16 + 4)

/-- The numbers are allowed, and the lengths of the code for lengths are there. -/
def HeadOk (s t : Nat) : Prop :=
  (headNumbers s).1 ≤ 286 ∧ (headNumbers s).2.1 ≤ 30 ∧ 14 + 3 * (headNumbers s).2.2 ≤ t

/-- The lengths of the code for lengths come after the three numbers. -/
def headLengths (s : Nat) : List Nat := lengthsOfLengths (headNumbers s).2.2 (s / 2 ^ 14)

/-- The lengths of the two other codes come after them, as one sequence. -/
def Both (s t : Nat) (r : Outcome (List Nat)) : Prop :=
  Lengths (headLengths s) ((headNumbers s).1 + (headNumbers s).2.1) []
    (s / 2 ^ (14 + 3 * (headNumbers s).2.2)) (t - (14 + 3 * (headNumbers s).2.2)) r

/-- The lengths of the two codes at the beginning of a dynamic block.  If there is no code for
lengths at all, which the RFC does not speak of, each bit counts as a length of zero. -/
inductive Header (s t : Nat) : Outcome (List Nat × List Nat) → Prop
  | cut : t < 14 → Header s t .more
  | numbers : 14 ≤ t → (286 < (headNumbers s).1 ∨ 30 < (headNumbers s).2.1) → Header s t .bad
  | cutLengths : 14 ≤ t → (headNumbers s).1 ≤ 286 → (headNumbers s).2.1 ≤ 30 →
      t < 14 + 3 * (headNumbers s).2.2 → Header s t .more
  | unusable : HeadOk s t → ¬ Usable .codes (headLengths s) → Header s t .bad
  | cutBoth : HeadOk s t → kraft (headLengths s) = 2 ^ 15 → Both s t .more → Header s t .more
  | wrongBoth : HeadOk s t → kraft (headLengths s) = 2 ^ 15 → Both s t .bad → Header s t .bad
  | unusableBoth {out s' t'} : HeadOk s t → kraft (headLengths s) = 2 ^ 15 →
      Both s t (.got out s' t') →
      ¬ (Usable .lens (out.take (headNumbers s).1) ∧ Usable .dists (out.drop (headNumbers s).1)) →
      Header s t .bad
  | cutNone : HeadOk s t → (∀ l ∈ headLengths s, l = 0) →
      t < 14 + 3 * (headNumbers s).2.2 + ((headNumbers s).1 + (headNumbers s).2.1) →
      Header s t .more
  | noCodes : HeadOk s t → (∀ l ∈ headLengths s, l = 0) →
      14 + 3 * (headNumbers s).2.2 + ((headNumbers s).1 + (headNumbers s).2.1) ≤ t →
      Header s t (.got (List.replicate (headNumbers s).1 0, List.replicate (headNumbers s).2.1 0)
        (s / 2 ^ (14 + 3 * (headNumbers s).2.2 + ((headNumbers s).1 + (headNumbers s).2.1)))
        (t - (14 + 3 * (headNumbers s).2.2 + ((headNumbers s).1 + (headNumbers s).2.1))))
  | got {out s' t'} : HeadOk s t → kraft (headLengths s) = 2 ^ 15 → Both s t (.got out s' t') →
      Usable .lens (out.take (headNumbers s).1) → Usable .dists (out.drop (headNumbers s).1) →
      Header s t (.got (out.take (headNumbers s).1, out.drop (headNumbers s).1) s' t')

end Verif.Zlib
