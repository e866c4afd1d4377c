import Verif.Zlib.Pieces

/-!
Model of how `inflate` reads the head of a dynamic block when the input comes in pieces
(fex/zlib/inflate.c lines 837–949): the states `TABLE`, `LENLENS` and `CODELENS` are entered again at each
call with what is kept in `state` (`nlen`, `ndist`, `ncode`, `have`, `lens`, `lencode`) and of the bit
buffer.
-/

namespace Verif.Zlib

/-- The states with what is kept for them; `lens` up to `have`. -/
inductive HeadMode where
  | table (old : Nat → Nat)
  | lenlens (nlen ndist ncode k : Nat) (lens : Nat → Nat)
  | codelens (nlen ndist : Nat) (t : Table) (root : Nat) (lens : List Nat)

/-- A state once (a loop in it once). -/
inductive HeadStep where
  | wait (b : Bits)
  | bad
  | done (x : Tables) (b : Bits)
  | next (m : HeadMode) (b : Bits)

/-- The numbers in `NEEDBITS(this.bits + 2)` and so on (inflate.c lines 883, 889, 901, 908). -/
def lenExtra (val : Nat) : Nat := if val < 16 then 0 else if val = 16 then 2 else if val = 17 then 3 else 7

/-- An entry when its bits are there (inflate.c lines 882–922). -/
def lenAct (nlen ndist : Nat) (t : Table) (root : Nat) (lens : List Nat) (e : Entry) (b : Bits) :
    HeadStep :=
  if e.val < 16 then .next (.codelens nlen ndist t root (lens ++ [e.val])) (dropBits b e.bits)
  else if e.val = 16 then
    let b := dropBits b e.bits
    if lens.length = 0 then .bad
    else
      let len := lens.getD (lens.length - 1) 0
      let copy := 3 + lowBits b 2
      let b := dropBits b 2
      if lens.length + copy > nlen + ndist then .bad
      else .next (.codelens nlen ndist t root (lens ++ List.replicate copy len)) b
  else if e.val = 17 then
    let b := dropBits b e.bits
    let copy := 3 + lowBits b 3
    let b := dropBits b 3
    if lens.length + copy > nlen + ndist then .bad
    else .next (.codelens nlen ndist t root (lens ++ List.replicate copy 0)) b
  else
    let b := dropBits b e.bits
    let copy := 11 + lowBits b 7
    let b := dropBits b 7
    if lens.length + copy > nlen + ndist then .bad
    else .next (.codelens nlen ndist t root (lens ++ List.replicate copy 0)) b

/-- Behind the loops: the table for the code of lengths (inflate.c lines 861–875). -/
def lenTable (nlen ndist ncode : Nat) (lens : Nat → Nat) (b : Bits) : HeadStep :=
  match inflateTable .codes ((List.range 19).map (zeroLens 19 ncode lens)) 7 with
  | some (.ok t root _) => .next (.codelens nlen ndist t root []) b
  | _ => .bad

/-- The two tables (inflate.c lines 928–949). -/
def headTables (nlen : Nat) (lens : List Nat) (b : Bits) : HeadStep :=
  match inflateTable .lens (lens.take nlen) 9 with
  | some (.ok lt lroot _) =>
    match inflateTable .dists (lens.drop nlen) 6 with
    | some (.ok dt droot _) => .done ⟨lt, lroot, dt, droot⟩ b
    | _ => .bad
  | _ => .bad

/-- The states `TABLE` (lines 837–854), `LENLENS` (855–875) and `CODELENS` (876–949). -/
def headStep : HeadMode → Bits → HeadStep
  | .table old, b =>
    match need 14 b with
    | none => .wait (pullAll b.hold b.bits b.next)
    | some b =>
      let nlen := lowBits b 5 + 257
      let b := dropBits b 5
      let ndist := lowBits b 5 + 1
      let b := dropBits b 5
      let ncode := lowBits b 4 + 4
      let b := dropBits b 4
      if nlen > 286 ∨ ndist > 30 then .bad else .next (.lenlens nlen ndist ncode 0 old) b
  | .lenlens nlen ndist ncode k lens, b =>
    if k < ncode then
      match need 3 b with
      | none => .wait (pullAll b.hold b.bits b.next)
      | some b =>
        .next (.lenlens nlen ndist ncode (k + 1) (upd lens (order.getD k 0) (lowBits b 3))) (dropBits b 3)
    else lenTable nlen ndist ncode lens b
  | .codelens nlen ndist t root lens, b =>
    if lens.length < nlen + ndist then
      match takeEntry t (fun hold => hold % 2 ^ root) 0 (b.next.length + 1) b with
      | none => .wait (pullAll b.hold b.bits b.next)
      | some (e, b) =>
        match need (e.bits + lenExtra e.val) b with
        | none => .wait (pullAll b.hold b.bits b.next)
        | some b => lenAct nlen ndist t root lens e b
    else headTables nlen lens b

/-- How a call ends, as far as the head goes. -/
inductive HeadStop where
  | wait (m : HeadMode) (b : Bits)
  | bad
  | done (x : Tables) (b : Bits)

/-- The loop of one call. -/
def runHead : Nat → HeadMode → Bits → Option HeadStop
  | 0, _, _ => none
  | fuel + 1, m, b =>
    match headStep m b with
    | .wait b => some (.wait m b)
    | .bad => some .bad
    | .done x b => some (.done x b)
    | .next m b => runHead fuel m b

/-- One call for each piece of the input. -/
def headPieces : HeadMode → Bits → List (List Byte) → Option (Read Tables)
  | _, _, [] => some .more
  | m, b, p :: ps =>
    match runHead 400 m ⟨b.hold, b.bits, p⟩ with
    | none => none
    | some .bad => some .bad
    | some (.done x b) => some (.ok x ⟨b.hold, b.bits, b.next ++ ps.flatten⟩)
    | some (.wait m b) => headPieces m b ps

end Verif.Zlib
