import Verif.Zlib.DeflateSpec

/-!
The decoding tables of inflate: `fex/zlib/inftrees.c`, and how `inflate.c` uses them.

Simplified: numbers do not overflow (all lengths are at most 15); tables are maps from
indices to entries, an entry that was never written is `none`.
-/

namespace Verif.Zlib

/-- `code` (inftrees.h lines 24–28). -/
structure Entry where
  op : Nat
  bits : Nat
  val : Nat
  deriving DecidableEq

/-- The space for tables from `*table` on. -/
abbrev Table := Nat → Option Entry

/-- An array with a new value at a place. -/
def upd {α : Type} (f : Nat → α) (i : Nat) (a : α) : Nat → α := fun j => if j = i then a else f j

/-- `lbase` (inftrees.c lines 61–63). -/
def lbase : List Nat :=
  [3, 4, 5, 6, 7, 8, 9, 10, 11, 13, 15, 17, 19, 23, 27, 31,
   35, 43, 51, 59, 67, 83, 99, 115, 131, 163, 195, 227, 258, 0, 0]

/-- `lext` (inftrees.c lines 64–66). -/
def lext : List Nat :=
  [16, 16, 16, 16, 16, 16, 16, 16, 17, 17, 17, 17, 18, 18, 18, 18,
   19, 19, 19, 19, 20, 20, 20, 20, 21, 21, 21, 21, 16, 201, 196]

/-- `dbase` (inftrees.c lines 67–70). -/
def dbase : List Nat :=
  [1, 2, 3, 4, 5, 7, 9, 13, 17, 25, 33, 49, 65, 97, 129, 193,
   257, 385, 513, 769, 1025, 1537, 2049, 3073, 4097, 6145,
   8193, 12289, 16385, 24577, 0, 0]

/-- `dext` (inftrees.c lines 71–74). -/
def dext : List Nat :=
  [16, 16, 16, 16, 17, 17, 18, 18, 19, 19, 20, 20, 21, 21, 22, 22,
   23, 23, 24, 24, 25, 25, 26, 26, 27, 27, 28, 28, 29, 29, 64, 64]

/-- The numbers of codes of each length (inftrees.c lines 107–110). -/
def counts (lens : List Nat) : Nat → Nat :=
  lens.foldl (fun c l => upd c l (c l + 1)) (fun _ => 0)

/-- The greatest length (inftrees.c lines 114–115), from 15 on. -/
def findMax (cnt : Nat → Nat) : Nat → Nat
  | 0 => 0
  | m + 1 => if cnt (m + 1) ≠ 0 then m + 1 else findMax cnt m

/-- The smallest length (inftrees.c lines 126–127), from 1 on. -/
def findMin (cnt : Nat → Nat) : Nat → Nat → Nat
  | 0, m => m
  | n + 1, m => if cnt m ≠ 0 then m else findMin cnt n (m + 1)

/-- The check for over-subscribed sets of lengths (inftrees.c lines 131–136); `none` for -1. -/
def leftLoop (cnt : Nat → Nat) : Nat → Nat → Int → Option Int
  | 0, _, left => some left
  | n + 1, len, left =>
    let left := left * 2 - cnt len
    if left < 0 then none else leftLoop cnt n (len + 1) left

/-- `offs` (inftrees.c lines 141–143). -/
def offsets (cnt : Nat → Nat) : Nat → Nat
  | 0 => 0
  | 1 => 0
  | l + 2 => offsets cnt (l + 1) + cnt (l + 1)

/-- The symbols sorted by length (inftrees.c lines 146–147). -/
def sortLoop : List Nat → Nat → (Nat → Nat) → (Nat → Nat) → (Nat → Nat)
  | [], _, _, work => work
  | l :: ls, sym, offs, work =>
    if l ≠ 0 then sortLoop ls (sym + 1) (upd offs l (offs l + 1)) (upd work (offs l) sym)
    else sortLoop ls (sym + 1) offs work

/-- The entry of a symbol (inftrees.c lines 183–199, 218–230); symbols above 19 of the lengths of
codes, which do not exist, are left out. -/
def symEntry (type : CodeType) (sym bits : Nat) : Entry :=
  match type with
  | .codes => if sym < 19 then ⟨0, bits, sym⟩ else ⟨32 + 64, bits, 0⟩
  | .lens =>
    if sym < 256 then ⟨0, bits, sym⟩
    else if sym > 256 then ⟨lext.getD (sym - 257) 0, bits, lbase.getD (sym - 257) 0⟩
    else ⟨32 + 64, bits, 0⟩
  | .dists => ⟨dext.getD sym 0, bits, dbase.getD sym 0⟩

/-- The loop that replicates an entry (inftrees.c lines 233–239); `none` when `fill` gets
below zero, which would be written at a wild place. -/
def fillLoop : Nat → Nat → Nat → Nat → Entry → Table → Option Table
  | 0, _, _, _, _, _ => none
  | fuel + 1, place, incr, fill, e, t =>
    if fill < incr then none
    else
      let fill := fill - incr
      let t := upd t (place + fill) (some e)
      if fill = 0 then some t else fillLoop fuel place incr fill e t

/-- The bit that is set next (inftrees.c lines 242–244). -/
def findIncr (huff : Nat) : Nat → Nat
  | 0 => 0
  | n + 1 => if huff / 2 ^ n % 2 = 1 then findIncr huff n else 2 ^ n

/-- The code incremented backwards (inftrees.c lines 242–250, 315–323). -/
def backInc (huff len : Nat) : Nat :=
  let incr := findIncr huff len
  if incr ≠ 0 then huff % incr + incr else 0

/-- The number of index bits of the next table (inftrees.c lines 269–276). -/
def lookAhead (cnt : Nat → Nat) (drop max : Nat) : Nat → Nat → Int → Nat
  | 0, curr, _ => curr
  | fuel + 1, curr, left =>
    if curr + drop < max then
      let left := left - cnt (curr + drop)
      if left ≤ 0 then curr else lookAhead cnt drop max fuel (curr + 1) (left * 2)
    else curr

/-- The variables of the main loop. -/
structure St where
  huff : Nat
  sym : Nat
  len : Nat
  next : Nat
  curr : Nat
  drop : Nat
  low : Nat
  used : Nat
  cnt : Nat → Nat
  table : Table

/-- What a round of the main loop leads to. -/
inductive Step where
  | wild
  | space
  | done (s : St)
  | more (s : St)

/-- `ENOUGH - MAXD` (inftrees.h lines 43–44). -/
def enough : Nat := 2048 - 592

/-- A round of the main loop (inftrees.c lines 216–289). -/
def mainStep (type : CodeType) (lens : List Nat) (work : Nat → Nat) (root max : Nat) (s : St) : Step :=
  let e := symEntry type (work s.sym) (s.len - s.drop)
  match fillLoop (2 ^ s.curr) (s.next + s.huff / 2 ^ s.drop) (2 ^ (s.len - s.drop)) (2 ^ s.curr) e
      s.table with
  | none => .wild
  | some table =>
    let min := 2 ^ s.curr
    let huff := backInc s.huff s.len
    let sym := s.sym + 1
    let cnt := upd s.cnt s.len (s.cnt s.len - 1)
    if cnt s.len = 0 ∧ s.len = max then
      .done { s with huff := huff, sym := sym, cnt := cnt, table := table }
    else
      let len := if cnt s.len = 0 then lens.getD (work sym) 0 else s.len
      if root < len ∧ huff % 2 ^ root ≠ s.low then
        let drop := if s.drop = 0 then root else s.drop
        let next := s.next + min
        let curr := lookAhead cnt drop max max (len - drop) (2 ^ (len - drop))
        let used := s.used + 2 ^ curr
        if type = .lens ∧ enough ≤ used then .space
        else
          let low := huff % 2 ^ root
          .more ⟨huff, sym, len, next, curr, drop, low, used, cnt,
            upd table low (some ⟨curr, root, next⟩)⟩
      else .more ⟨huff, sym, len, s.next, s.curr, s.drop, s.low, s.used, cnt, table⟩

/-- The main loop (inftrees.c lines 216–289). -/
def mainLoop (type : CodeType) (lens : List Nat) (work : Nat → Nat) (root max : Nat) :
    Nat → St → Step
  | 0, _ => .wild
  | fuel + 1, s =>
    match mainStep type lens work root max s with
    | .more s => mainLoop type lens work root max fuel s
    | r => r

/-- The loop for incomplete codes (inftrees.c lines 298–324). -/
def restLoop (root low : Nat) : Nat → Nat → Nat → Nat → Nat → Nat → Table → Option Table
  | 0, _, _, _, _, _, _ => none
  | fuel + 1, huff, len, next, drop, bits, t =>
    if huff = 0 then some t
    else
      let back := drop ≠ 0 ∧ huff % 2 ^ root ≠ low
      let drop := if back then 0 else drop
      let len := if back then root else len
      let next := if back then 0 else next
      let bits := if back then len else bits
      let t := upd t (next + huff / 2 ^ drop) (some ⟨64, bits, 0⟩)
      restLoop root low fuel (backInc huff len) len next drop bits t

/-- What `inflate_table` returns. -/
inductive Res where
  /-- -1: over-subscribed or incomplete. -/
  | invalid
  /-- 1: not enough space. -/
  | space
  /-- 0: the tables, the number of index bits, the number of entries. -/
  | ok (table : Table) (bits used : Nat)

/-- `inflate_table` (inftrees.c lines 33–329); `none` for writes at wild places. -/
def inflateTable (type : CodeType) (lens : List Nat) (bits : Nat) : Option Res :=
  let cnt := counts lens
  let max := findMax cnt 15
  let root := if bits > max then max else bits
  if max = 0 then
    let e : Entry := ⟨64, 1, 0⟩
    some (.ok (upd (upd (fun _ => none) 0 (some e)) 1 (some e)) 1 2)
  else
    let min := findMin cnt 15 1
    let root := if root < min then min else root
    match leftLoop cnt 15 1 1 with
    | none => some .invalid
    | some left =>
      if left > 0 ∧ (type = .codes ∨ max ≠ 1) then some .invalid
      else
        let work := sortLoop lens 0 (offsets cnt) (fun _ => 0)
        let used := 2 ^ root
        if type = .lens ∧ enough ≤ used then some .space
        else
          match mainLoop type lens work root max (lens.length + 1)
              ⟨0, 0, min, 0, root, 0, 2 ^ 32 - 1, used, cnt, fun _ => none⟩ with
          | .wild => none
          | .more _ => none
          | .space => some .space
          | .done s =>
            (restLoop root s.low (2 ^ 15) s.huff s.len s.next s.drop (s.len - s.drop) s.table).map
              fun t => .ok t root s.used

/-- How `inflate` goes from an entry to a further table: `inflate.c` line 962 for literals and
lengths, line 1007 for distances; the lengths of codes (lines 877–882) have no further tables. -/
def isLink (type : CodeType) (op : Nat) : Bool :=
  match type with
  | .codes => false
  | .lens => op ≠ 0 ∧ op &&& 0xf0 = 0
  | .dists => op &&& 0xf0 = 0

/-- What is in the bit buffer: `bits` bits of `hold`, and the bytes that come (`next`). -/
structure Bits where
  hold : Nat
  bits : Nat
  next : List Byte

/-- `PULLBYTE` (inflate.c lines 433–439). -/
def pullByte (b : Bits) : Option Bits :=
  match b.next with
  | [] => none
  | x :: xs => some ⟨b.hold + x.toNat * 2 ^ b.bits, b.bits + 8, xs⟩

/-- `DROPBITS` (inflate.c lines 454–458). -/
def dropBits (b : Bits) (n : Nat) : Bits := ⟨b.hold / 2 ^ n, b.bits - n, b.next⟩

/-- An entry is taken when its bits are there, otherwise a byte is pulled (inflate.c lines 957–961,
964–969, 1002–1006, 1009–1014); `index` gives the place.  `none`: more input is needed, or an
entry that was never written. -/
def takeEntry (t : Table) (index : Nat → Nat) (drop : Nat) : Nat → Bits → Option (Entry × Bits)
  | 0, _ => none
  | fuel + 1, b =>
    match t (index b.hold) with
    | none => none
    | some e =>
      if drop + e.bits ≤ b.bits then some (e, b)
      else
        match pullByte b with
        | none => none
        | some b => takeEntry t index drop fuel b

/-- A code is taken from the input (inflate.c lines 877–884, 957–972, 1002–1017). -/
def takeCode (type : CodeType) (t : Table) (root : Nat) (b : Bits) : Option (Entry × Bits) :=
  match takeEntry t (fun hold => hold % 2 ^ root) 0 (b.next.length + 1) b with
  | none => none
  | some (e, b) =>
    if isLink type e.op then
      match takeEntry t (fun hold => e.val + hold % 2 ^ (e.bits + e.op) / 2 ^ e.bits) e.bits
          (b.next.length + 1) b with
      | none => none
      | some (e', b) => some (e', dropBits (dropBits b e.bits) e'.bits)
    else some (e, dropBits b e.bits)

/-- What `inflate` does with an entry: lines 882–917 for lengths of codes (only the value is
looked at), 973–991 for literals and lengths, 1018–1024 for distances. -/
def interpret (type : CodeType) (e : Entry) : Meaning :=
  match type with
  | .codes => .number e.val
  | .lens =>
    if e.op = 0 then .number e.val
    else if e.op &&& 32 ≠ 0 then .endOfBlock
    else if e.op &&& 64 ≠ 0 then .invalid
    else .copy e.val (e.op &&& 15)
  | .dists => if e.op &&& 64 ≠ 0 then .invalid else .copy e.val (e.op &&& 15)

end Verif.Zlib
