import Verif.Fex.Model

/-!
Model of `Zlib_Inflater::read` (fex/fex/Zlib_Inflater.cpp lines 166–259) for compressed files, over any
function in the place of `inflate`.  The file is as in Model.lean; errors of reading are not modelled.
-/

namespace Verif.Fex

/-- What `inflate` returns: `Z_OK`, `Z_STREAM_END`, `Z_BUF_ERROR`, and all others. -/
inductive Code where
  | ok
  | streamEnd
  | bufError
  | error
deriving DecidableEq

/-- What a call of `inflate` leads to: its state, what was written to `next_out`, what is left at
`next_in`, and what was returned. -/
structure Called (σ : Type) where
  state : σ
  made : List Byte
  left : List Byte
  code : Code

/-- `inflate`, for a state, the bytes at `next_in`, and `avail_out`. -/
abbrev Decoder (σ : Type) := σ → List Byte → Nat → Called σ

/-- What a call of `read` leads to: `end` was called, or there are a state and bytes in the buffer; and what
was written.  `failed`: an error is returned. -/
inductive Got (σ : Type) where
  | ended (file out : List Byte)
  | kept (state : σ) (avail file out : List Byte)
  | failed

/-- What was written before. -/
def Got.behind {σ : Type} (out : List Byte) : Got σ → Got σ
  | .ended file out' => .ended file (out ++ out')
  | .kept s avail file out' => .kept s avail file (out ++ out')
  | .failed => .failed

/-- The loop for compressed files (Zlib_Inflater.cpp lines 176–206); `size` is `buf.size()`. -/
def inflateLoop {σ : Type} (d : Decoder σ) (size : Nat) :
    Nat → σ → List Byte → List Byte → Nat → Option (Got σ)
  | 0, _, _, _, _ => none
  | fuel + 1, s, avail, file, space =>
    let r := d s avail space
    if r.code = .streamEnd then some (.ended file r.made)
    else if r.code ≠ .ok ∧ (r.code ≠ .bufError ∨ avail.length ≠ 0) then some .failed
    else if space - r.made.length = 0 then some (.kept r.state r.left file r.made)
    else if r.left.length ≠ 0 then some .failed
    else
      -- `fill_buf( buf.size() )`
      let avail := file.take size
      let file := file.drop size
      if avail.length = 0 then some .failed
      else (inflateLoop d size fuel r.state avail file (space - r.made.length)).map (Got.behind r.made)

/-- `Zlib_Inflater::read` when something is deflated. -/
def inflateRead {σ : Type} (d : Decoder σ) (size : Nat) (s : σ) (avail file : List Byte) (count : Nat) :
    Option (Got σ) :=
  if count ≠ 0 then inflateLoop d size (file.length + 1) s avail file count
  else some (.kept s avail file [])

/-- A series of calls of `read`: what they write, up to an error.  After `end` nothing is written, since
`next_in` is null (line 169). -/
def inflateAll {σ : Type} (d : Decoder σ) (size : Nat) (s : σ) (avail file : List Byte) :
    List Nat → Option (List (List Byte))
  | [] => some []
  | count :: counts =>
    match inflateRead d size s avail file count with
    | none => none
    | some .failed => none
    | some (.ended _ out) => some (out :: counts.map fun _ => [])
    | some (.kept s avail file out) => (inflateAll d size s avail file counts).map fun outs => out :: outs

end Verif.Fex
