import Verif.Basic
import Verif.Irstlm.Pool

/-!
# The stack of strings of irstlm

`tools/translators/bonsai/irstlm/mempool.{h,cpp}`: `strstack`.

Simplifications: a C string is the list of its bytes without the zero at the end; a pointer is the number of a
block (from the first one) and a place in the block; sizes are natural numbers that do not overflow. The end of
the program (a string that is too long) and the use of a null pointer are `none`; a null pointer that is returned
is `some none`. A place outside of a block would read as 0; none is read, as `idx` is less than the size.
-/

namespace Verif.Irstlm

/-- `mempool.h`, 106-113. The block on top is the head of the list. -/
structure Strstack where
  size : Nat
  blocks : List Str
  idx : Nat
  entries : Int
deriving Repr, DecidableEq

/-- `mempool.cpp`, 211-228. -/
def Strstack.new (bs : Nat) : Strstack :=
  { size := bs, blocks := [List.replicate bs 0], idx := 0, entries := 0 }

/-- `strcpy(&block[i], s)`. -/
def strcpy (block : Str) (i : Nat) (s : Str) : Str := block.take i ++ (s ++ [0]) ++ block.drop (i + s.length + 1)

/-- The string at a place. -/
def stringAt (block : Str) (i : Nat) : Str := (block.drop i).takeWhile (· != 0)

/-- The string a pointer points to. -/
def Strstack.read (t : Strstack) (a : Addr) : Option Str := t.blocks.reverse[a.block]?.map (stringAt · a.offset)

/-- `mempool.cpp`, 248-268: a new block if the string does not fit. -/
def Strstack.room (t : Strstack) (len : Nat) : Strstack :=
  if t.idx + len + 1 ≥ t.size then { t with blocks := List.replicate t.size 0 :: t.blocks, idx := 0 } else t

/-- `mempool.cpp`, 240-280: `push`. -/
def Strstack.push (t : Strstack) (s : Str) : Option (Addr × Strstack) :=
  if s.length + 1 ≥ t.size then none
  else
    let t1 := t.room s.length
    match t1.blocks with
    | [] => none
    | b :: l => some (⟨l.length, t1.idx⟩,
        { t1 with blocks := strcpy b t1.idx s :: l, idx := t1.idx + s.length + 1, entries := t1.entries + 1 })

/-- `mempool.cpp`, 305-307 and 347-349: back to the first character that is not zero. -/
def backNonzero (b : Str) : Nat → Nat
  | 0 => 0
  | i + 1 => if b.getD (i + 1) 0 ≠ 0 then i else backNonzero b i

/-- `mempool.cpp`, 310-312 and 354-356: back to the first zero. -/
def backZero (b : Str) : Nat → Nat
  | 0 => 0
  | i + 1 => if b.getD (i + 1) 0 = 0 then i else backZero b i

/-- `mempool.cpp`, 304-326 and 346-367: where the last string of the block begins. -/
def lastString (b : Str) (idx : Nat) : Nat :=
  let i := backZero b (backNonzero b idx)
  if b.getD (i + 1) 0 = 0 then i + 2 else 0

/-- `mempool.cpp`, 283-327: `pop`. -/
def Strstack.pop (t : Strstack) : Option Addr × Strstack :=
  let t1 : Strstack := if t.idx = 0 then { t with blocks := t.blocks.tail, idx := t.size - 1 } else t
  match t.blocks, t1.blocks with
  | _ :: _, b :: l =>
    let i := lastString b t1.idx
    (some ⟨l.length, i⟩,
      { t1 with blocks := (b.take i ++ List.replicate (t.size - i) 0) :: l, idx := i, entries := t.entries - 1 })
  | [], _ => (none, t)
  | _ :: _, [] => (none, { t with blocks := [] })

/-- `mempool.cpp`, 330-368: `top`. -/
def Strstack.top (t : Strstack) : Option Addr :=
  match if t.idx = 0 then t.blocks.tail else t.blocks with
  | [] => none
  | b :: l => some ⟨l.length, lastString b (if t.idx = 0 then t.size - 1 else t.idx)⟩

/-! ## What is claimed -/

/-- A C string has no zero inside. -/
def CString (s : Str) : Prop := (0 : Byte) ∉ s

/-- The strings on the stack can be told apart: they are not empty, and a string at the beginning of a block
has more than one character. -/
def Separable (l : List (Addr × Str)) : Prop := ∀ x ∈ l, x.2 ≠ [] ∧ (x.1.offset = 0 → x.2.length ≠ 1)

/-- The stacks that come about, with the pointers given for the strings on them (the last one first). -/
inductive StackReach (size : Nat) : Strstack → List (Addr × Str) → Prop
  | start : StackReach size (Strstack.new size) []
  | push {t l s a u} : StackReach size t l → CString s → t.push s = some (a, u) →
      StackReach size u ((a, s) :: l)
  | pop {t x l} : StackReach size t (x :: l) → Separable (x :: l) → StackReach size t.pop.2 l

end Verif.Irstlm
