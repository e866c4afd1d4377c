import Verif.Zlib.Inftrees

/-!
Model of the states `TABLE`, `LENLENS` and `CODELENS` of `inflate` (fex/zlib/inflate.c, lines
837-949): the lengths of the codes at the beginning of a dynamic block.

The input is given in one piece; `more` is the leaving of `inflate` because it is not enough.
-/

namespace Verif.Zlib

/-- `NEEDBITS` (inflate.c lines 441–447); `none`: more input is needed. -/
def needBits (n : Nat) : Nat → Bits → Option Bits
  | 0, b => if n ≤ b.bits then some b else none
  | fuel + 1, b =>
    if n ≤ b.bits then some b
    else
      match pullByte b with
      | none => none
      | some b => needBits n fuel b

/-- `NEEDBITS(n)`, for as many bytes as there are. -/
def need (n : Nat) (b : Bits) : Option Bits := needBits n b.next.length b

/-- `BITS` (inflate.c lines 449–451). -/
def lowBits (b : Bits) (n : Nat) : Nat := b.hold % 2 ^ n

/-- What a part of `inflate` leads to: on, the leaving for more input, or the state `BAD`. -/
inductive Read (α : Type) where
  | ok (a : α) (b : Bits)
  | more
  | bad

/-- `order` (inflate.c lines 574–575). -/
def order : List Nat := [16, 17, 18, 0, 8, 7, 9, 6, 10, 5, 11, 4, 12, 3, 13, 2, 14, 1, 15]

/-- The first loop of state `LENLENS` (inflate.c lines 856–860), from `have` on; `lens` as a map. -/
def lenLens (ncode : Nat) : Nat → Nat → (Nat → Nat) → Bits → Read (Nat → Nat)
  | 0, _, lens, b => .ok lens b
  | fuel + 1, k, lens, b =>
    if k < ncode then
      match need 3 b with
      | none => .more
      | some b => lenLens ncode fuel (k + 1) (upd lens (order.getD k 0) (lowBits b 3)) (dropBits b 3)
    else .ok lens b

/-- The second loop (inflate.c lines 861–862). -/
def zeroLens : Nat → Nat → (Nat → Nat) → (Nat → Nat)
  | 0, _, lens => lens
  | fuel + 1, k, lens =>
    if k < 19 then zeroLens fuel (k + 1) (upd lens (order.getD k 0) 0) else lens

/-- State `CODELENS` (inflate.c lines 876–923): `lens` are the lengths up to `have`, `n` is
`nlen + ndist`. -/
def codeLens (t : Table) (root n : Nat) : Nat → List Nat → Bits → Read (List Nat)
  | 0, _, _ => .more
  | fuel + 1, lens, b =>
    if lens.length < n then
      match takeEntry t (fun hold => hold % 2 ^ root) 0 (b.next.length + 1) b with
      | none => .more
      | some (e, b) =>
        if e.val < 16 then
          match need e.bits b with
          | none => .more
          | some b => codeLens t root n fuel (lens ++ [e.val]) (dropBits b e.bits)
        else if e.val = 16 then
          match need (e.bits + 2) b with
          | none => .more
          | some b =>
            let b := dropBits b e.bits
            if lens.length = 0 then .bad
            else
              let len := lens.getD (lens.length - 1) 0
              let copy := 3 + lowBits b 2
              let b := dropBits b 2
              if lens.length + copy > n then .bad
              else codeLens t root n fuel (lens ++ List.replicate copy len) b
        else if e.val = 17 then
          match need (e.bits + 3) b with
          | none => .more
          | some b =>
            let b := dropBits b e.bits
            let copy := 3 + lowBits b 3
            let b := dropBits b 3
            if lens.length + copy > n then .bad
            else codeLens t root n fuel (lens ++ List.replicate copy 0) b
        else
          match need (e.bits + 7) b with
          | none => .more
          | some b =>
            let b := dropBits b e.bits
            let copy := 11 + lowBits b 7
            let b := dropBits b 7
            if lens.length + copy > n then .bad
            else codeLens t root n fuel (lens ++ List.replicate copy 0) b
    else .ok lens b

/-- The tables of a block: `lencode`, `lenbits`, `distcode`, `distbits`. -/
structure Tables where
  lencode : Table
  lenbits : Nat
  distcode : Table
  distbits : Nat

/-- The states `TABLE`, `LENLENS`, `CODELENS` (inflate.c lines 837–949).  A write of
`inflate_table` at a wild place is not possible (C193) and appears as `bad` here.  `old` is what is in
`state->lens` before. -/
def readHeader (old : Nat → Nat) (b : Bits) : Read Tables :=
  match need 14 b with
  | none => .more
  | some b =>
    let nlen := lowBits b 5 + 257
    let b := dropBits b 5
    let ndist := lowBits b 5 + 1
    let b := dropBits b 5
    let ncode := lowBits b 4 + 4
    let b := dropBits b 4
    if nlen > 286 ∨ ndist > 30 then .bad
    else
      match lenLens ncode 19 0 old b with
      | .more => .more
      | .bad => .bad
      | .ok lens b =>
        let lens := zeroLens 19 ncode lens
        match inflateTable .codes ((List.range 19).map lens) 7 with
        | some (.ok t root _) =>
          match codeLens t root (nlen + ndist) (nlen + ndist + 1) [] b with
          | .more => .more
          | .bad => .bad
          | .ok lens b =>
            match inflateTable .lens (lens.take nlen) 9 with
            | some (.ok lt lroot _) =>
              match inflateTable .dists (lens.drop nlen) 6 with
              | some (.ok dt droot _) => .ok ⟨lt, lroot, dt, droot⟩ b
              | _ => .bad
            | _ => .bad
        | _ => .bad

end Verif.Zlib
