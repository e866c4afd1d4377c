import Verif.Fex.Inflate

/-! What is asked of a decoder. -/

namespace Verif.Fex

/-- `I s input out rest`: in the state `s`, with the input `input` before it (in the buffer or still in the
file), `out` is to be written, and then the stream ends, with `rest` behind it.  A decoder serves if each call
with space either ends the stream and has written all of `out`; or writes a part of it, stops only when there
is no more space or no more input, and, if there is space left, the stream goes on in what is not there yet.
`Z_BUF_ERROR` is only for calls without input. -/
def Serves {σ : Type} (d : Decoder σ) (I : σ → List Byte → List Byte → List Byte → Prop) : Prop :=
  ∀ s avail later out rest space, I s (avail ++ later) out rest → 0 < space →
    let r := d s avail space
    (r.code = .streamEnd ∧ r.made = out ∧ out.length ≤ space ∧ r.left ++ later = rest) ∨
    ((r.code = .ok ∨ r.code = .bufError ∧ avail = []) ∧
      ∃ out', out = r.made ++ out' ∧ r.made.length ≤ space ∧
        (r.made.length < space → r.left = [] ∧ later ≠ []) ∧
        I r.state (r.left ++ later) out' rest)

/-- The stream is wrong or cut: it is never ended. -/
def Endless {σ : Type} (d : Decoder σ) (J : σ → List Byte → Prop) : Prop :=
  ∀ s avail later space, J s (avail ++ later) → 0 < space →
    let r := d s avail space
    r.code ≠ .streamEnd ∧ r.made.length ≤ space ∧ J r.state (r.left ++ later)

end Verif.Fex
