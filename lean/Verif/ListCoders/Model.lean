import Verif.Basic

/-!
Model of `VarIntType` and `Simple9` (`tools/translators/bonsai/rules/ListCoders.h`).

Words and numbers are `Nat`s with the reductions of the fixed-width types written out.  A failed `assert`
and undefined behaviour are `none`.
-/
namespace Verif.ListCoders
open Verif

/-! ## VarInt

`s` is `sizeof(T)*8-1`: 7, 15 or 31. -/

/-- ListCoders.h:25-33: the loop.  `mask` truncated to `T` selects the low `s` bits. -/
def encodeLoop (s x : Nat) (hs : 0 < s) : List Nat :=
  if h : x = 0 then []
  else
    let res := x &&& (2 ^ s - 1)
    let x' := x >>> s
    (if x' ≠ 0 then res ||| 2 ^ s else res) :: encodeLoop s x' hs
termination_by x
decreasing_by
  rw [Nat.shiftRight_eq_div_pow]
  exact Nat.div_lt_self (by omega) (Nat.one_lt_two_pow (by omega))

/-- ListCoders.h:11-34 -/
def encodeSymbol (s x : Nat) (hs : 0 < s) : List Nat := if x = 0 then [0] else encodeLoop s x hs

/-- ListCoders.h:60-68 -/
def encode (s : Nat) (hs : 0 < s) : List Nat → List Nat
  | [] => []
  | x :: xs => encodeSymbol s x hs ++ encode s hs xs

/-- ListCoders.h:36-56: with `i` words consumed and `out` collected; a shift of a `size_t` by 64 or more
is undefined. -/
def decodeSymbol (s : Nat) : List Nat → Nat → Nat → Option (Nat × List Nat)
  | [], _, _ => none
  | w :: ws, i, out =>
    if 64 ≤ s * i then none
    else if w.testBit s then
      decodeSymbol s ws (i + 1) (out ||| ((w &&& (2 ^ s - 1)) <<< (s * i)) % 2 ^ 64)
    else some (out ||| (w <<< (s * i)) % 2 ^ 64, ws)

theorem decodeSymbol_lt {s : Nat} {ws : List Nat} {i out x : Nat} {r : List Nat}
    (h : decodeSymbol s ws i out = some (x, r)) : r.length < ws.length := by
  induction ws generalizing i out with
  | nil => simp [decodeSymbol] at h
  | cons w ws ih =>
    simp only [decodeSymbol] at h
    split at h
    · cases h
    · split at h
      · have := ih h; simp; omega
      · cases h; simp

/-- ListCoders.h:70-80 -/
def decode (s : Nat) (ws : List Nat) : Option (List Nat) :=
  if ws = [] then some []
  else
    match h : decodeSymbol s ws 0 0 with
    | none => none
    | some (x, r) => (decode s r).map (x :: ·)
termination_by ws.length
decreasing_by exact decodeSymbol_lt h

/-- ListCoders.h:82-97: `left` numbers still to read; returns the sum and the rest. -/
def decodeAndSum (s : Nat) : Nat → List Nat → Nat → Option (Nat × List Nat)
  | 0, ws, sum => some (sum, ws)
  | left+1, ws, sum =>
    if ws = [] then some (sum, ws)
    else
      match decodeSymbol s ws 0 0 with
      | none => none
      | some (x, r) => decodeAndSum s left r ((sum + x) % 2 ^ 64)

/-! ## Simple9 -/

/-- ListCoders.h:215: `parts`. -/
def parts : List Nat := [1, 2, 3, 4, 5, 7, 9, 14, 28]

/-- ListCoders.h:119-130: type and bit length for a number of values. -/
def typeOf : Nat → Nat × Nat
  | 1 => (1, 28)
  | 2 => (2, 14)
  | 3 => (3, 9)
  | 4 => (4, 7)
  | 5 => (5, 5)
  | 7 => (6, 4)
  | 9 => (7, 3)
  | 14 => (8, 2)
  | 28 => (9, 1)
  | _ => (0, 0)

/-- ListCoders.h:135-142 for the values still to pack. -/
def packLoop (bitlength : Nat) : List Nat → Nat → Nat
  | [], out => out
  | x :: xs, out => packLoop bitlength xs (out ||| (x <<< (bitlength * xs.length)) % 2 ^ 32)

/-- ListCoders.h:112-143 -/
def packWord (xs : List Nat) : Nat :=
  packLoop (typeOf xs.length).2 xs (((typeOf xs.length).1 <<< 28) % 2 ^ 32)

/-- ListCoders.h:154-165: bit length, initial shift and mask for a type. -/
def layout : Nat → Nat × Nat × Nat
  | 1 => (28, 0, 268435455)
  | 2 => (14, 14, 16383)
  | 3 => (9, 18, 511)
  | 4 => (7, 21, 127)
  | 5 => (5, 20, 31)
  | 6 => (4, 24, 15)
  | 7 => (3, 24, 7)
  | 8 => (2, 26, 3)
  | 9 => (1, 27, 1)
  | _ => (0, 0, 0)

/-- ListCoders.h:167-174; the loop with bit length 0 is never entered (`layout` has shift 0 then). -/
def unpackLoop (input bitlen mask shift : Nat) : List Nat :=
  if h : 0 < shift ∧ 0 < bitlen then
    ((input >>> shift) &&& mask) :: unpackLoop input bitlen mask (shift - bitlen)
  else [input &&& mask]
termination_by shift
decreasing_by omega

/-- ListCoders.h:146-175 -/
def unpackWord (input : Nat) : List Nat :=
  let (bitlen, shift, mask) := layout (input >>> 28)
  unpackLoop input bitlen mask shift

/-- ListCoders.h:198-208: the loop of `DecodeAndSumSymbol`; returns the sum and `curr`. -/
def sumLoop (input bitlen mask num shift sum curr : Nat) : Nat × Nat :=
  if h : 0 < shift ∧ 0 < bitlen then
    let sum := sum + ((input >>> shift) &&& mask)
    if curr + 1 = num then (sum, curr + 1)
    else sumLoop input bitlen mask num (shift - bitlen) sum (curr + 1)
  else (sum + (input &&& mask), curr + 1)
termination_by shift
decreasing_by omega

/-- ListCoders.h:177-209 -/
def sumWord (input num curr : Nat) : Nat × Nat :=
  let (bitlen, shift, mask) := layout (input >>> 28)
  sumLoop input bitlen mask num shift 0 curr

/-- ListCoders.h:233: `ceil(log(x+1)/log(2))`, the number of bits of `x`; floating point arithmetic is
taken to be exact (it is for `x < 2^28`). -/
def reqbit (x : Nat) : Nat := if x = 0 then 0 else Nat.log2 x + 1

/-- ListCoders.h:220-246: the choice of the number of values for one word; `xs` is the rest of the input.
A value 0 divides by zero (line 236); the assertion of line 234 fails above 28 bits. -/
def choose (xs : List Nat) (lastpos j lastbit lastyes : Nat) : Option Nat :=
  if h : j < 9 ∧ lastpos < 28 then
    match xs[lastpos]? with
    | none => some lastyes
    | some x =>
      let j := if parts[j]?.getD 0 ≤ lastpos then j + 1 else j
      if 28 < reqbit x ∨ reqbit x = 0 then none
      else
        let bit := 28 / (28 / reqbit x)
        let lastbit := if lastbit < bit then bit else lastbit
        if 28 / lastbit < parts[j]?.getD 0 then some lastyes
        else choose xs (lastpos + 1) j lastbit (if lastpos = parts[j]?.getD 0 - 1 then lastpos else lastyes)
  else some lastyes
termination_by 28 - lastpos
decreasing_by omega

/-- ListCoders.h:213-256; `fuel` bounds the rounds (one number at least is consumed in each). -/
def encode9Loop : Nat → List Nat → Option (List Nat)
  | _, [] => some []
  | 0, _ :: _ => none
  | fuel+1, x :: xs =>
    match choose (x :: xs) 0 0 1 0 with
    | none => none
    | some lastyes =>
      (encode9Loop fuel ((x :: xs).drop (lastyes + 1))).map
        (packWord ((x :: xs).take (lastyes + 1)) :: ·)

/-- ListCoders.h:213-256 -/
def encode9 (xs : List Nat) : Option (List Nat) := encode9Loop xs.length xs

/-- ListCoders.h:258-266 -/
def decode9 (ws : List Nat) : List Nat := ws.flatMap unpackWord

/-- ListCoders.h:271-277 -/
def sumWords (num : Nat) : List Nat → Nat → Nat → Nat × Nat
  | [], sum, curr => (sum, curr)
  | w :: ws, sum, curr =>
    if curr < num then
      let (s, c) := sumWord w num curr
      sumWords num ws ((sum + s) % 2 ^ 64) c
    else (sum, curr)

/-- ListCoders.h:268-280 -/
def decodeAndSum9 (ws : List Nat) (num : Nat) : Option Nat :=
  let (sum, curr) := sumWords num ws 0 0
  if curr = num then some sum else none

end Verif.ListCoders
