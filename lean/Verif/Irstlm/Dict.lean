import Verif.Basic
import Verif.Server.Handler

/-!
# The hash tables and dictionaries of irstlm

`tools/translators/bonsai/irstlm/htable.{h,cpp}` and `dictionary.{h,cpp}`.

Simplifications: a C string is the list of its bytes without the zero at the end; the strings of a dictionary are
kept in its entries (`Verif/Irstlm/Stack.lean` shows that the pointers of `strstack` keep their strings), and the
entries of the hash table are lists (`Verif/Irstlm/Pool.lean` shows that the items of `mempool` do not overlap);
a key is the place of an entry in the table of the dictionary; numbers do not overflow; the messages and the
counts for statistics are left out. Of the dictionary for unknown words (`oovlex`) only the search is kept.
-/

namespace Verif.Irstlm

open Verif.Server (decimal isSpace ascii)

/-! ## Hash tables -/

/-- `htable.h`, 59-66. The chains hold the keys. -/
structure Htable where
  size : Nat
  table : List (List Nat)
  keys : Nat
deriving Repr, DecidableEq

/-- `htable.cpp`, 33-54. -/
def Htable.new (n : Nat) : Htable := { size := n, table := List.replicate n [], keys := 0 }

/-- `htable.cpp`, 57-111: `search` with `HT_FIND`; `val` is what keys point to. Without chains there is a
division by zero (`none`). -/
def Htable.find {V : Type} [DecidableEq V] (hash : V → Nat) (val : Nat → V) (t : Htable) (v : V) :
    Option (Option Nat) :=
  if t.size = 0 then none
  else some ((t.table.getD (hash v % t.size) []).find? fun k => decide (val k = v))

/-- `htable.cpp`, 57-111: `search` with `HT_ENTER`: the key that is found or put at the end of the chain. -/
def Htable.enter {V : Type} [DecidableEq V] (hash : V → Nat) (val : Nat → V) (t : Htable) (k : Nat) :
    Option (Nat × Htable) :=
  (t.find hash val (val k)).map fun r =>
    match r with
    | some j => (j, t)
    | none => (k, { t with table := t.table.modify (hash (val k) % t.size) (· ++ [k]), keys := t.keys + 1 })

/-- `htable.h`, 63-64: `scan_i` and `scan_p`. -/
abbrev Scan := Nat × List Nat

/-- `htable.cpp`, 118-122: `scan` with `HT_INIT`. -/
def Htable.scanInit (t : Htable) : Option Scan := t.table[0]?.map fun c => (0, c)

/-- `htable.cpp`, 125: on to the next chain that is not empty; the fuel is the number of chains. -/
def Htable.advance (t : Htable) : Nat → Scan → Scan
  | fuel + 1, (i, []) =>
    if i + 1 < t.size then t.advance fuel (i + 1, t.table.getD (i + 1) []) else (i + 1, [])
  | _, s => s

/-- `htable.cpp`, 114-135: `scan` with `HT_CONT`. -/
def Htable.scanCont (t : Htable) (s : Scan) : Option Nat × Scan :=
  match t.advance t.size s with
  | (i, k :: c) => (some k, (i, c))
  | (i, []) => (none, (i, []))

/-- The results of `n` calls of `scan` with `HT_CONT`. -/
def Htable.scanned (t : Htable) : Nat → Scan → List (Option Nat)
  | 0, _ => []
  | n + 1, s => (t.scanCont s).1 :: t.scanned n (t.scanCont s).2

/-- `Key[i] - ' '` as an unsigned number; characters are signed. -/
def charValue (c : Byte) : UInt32 := (if c < 128 then c.toUInt32 else c.toUInt32 + 0xFFFFFF00) - 32

/-- `htable.cpp`, 189-204: `HashStr`. -/
def hashStr (w : Str) : Nat := (w.foldl (fun h c => (h * 37) ^^^ charValue c) (0 : UInt32)).toNat % 1048583

/-! ## Dictionaries -/

/-- `dictionary.h`, 55-59. -/
structure Entry where
  word : Str
  code : Nat
  freq : Int
deriving Repr, DecidableEq

/-- `OOV_`. -/
def oov : Str := ascii "<unk>"

/-- Why there is no result. -/
inductive Stop
  /-- `exit(1)` -/
  | exit
  /-- undefined behaviour -/
  | undefined
  /-- a recursion without end -/
  | endless
  /-- a file without the expected words and numbers (what happens then is not modelled) -/
  | input
deriving Repr, DecidableEq

/-- `dictionary.h`, 64-83. `tb` are the first `n` entries; `oovCode` is `none` for -1; `oovlex` is `none` if it
is not initialized and `some none` for a null pointer. -/
structure Dict where
  tb : List Entry
  lim : Nat
  htb : Htable
  total : Int
  oovCode : Option Nat
  ifl : Bool
  stSize : Nat
  oovlex : Option (Option (Str → Option Nat))
  inOovLex : Bool
  oovLexCode : Option Nat

/-- `dictionary.cpp`, 32-57: a dictionary without a file. -/
def Dict.new (size : Nat) (oovlex : Option (Str → Option Nat) := none) : Dict :=
  { tb := [], lim := size, htb := .new (size / 5), total := 0, oovCode := none, ifl := false,
    stSize := size * 10, oovlex := some oovlex, inOovLex := false, oovLexCode := none }

/-- The word of a key. -/
def wordOf (tb : List Entry) (k : Nat) : Str := (tb[k]?.map Entry.word).getD []

/-- The entries of the table are entered. -/
def enterAll {V : Type} [DecidableEq V] (hash : V → Nat) (val : Nat → V) : List Nat → Htable → Option Htable
  | [], t => some t
  | k :: ks, t => (t.enter hash val k).bind fun r => enterAll hash val ks r.2

/-- `GROWTH_STEP`. -/
def growthStep : Nat := 100000

/-- `dictionary.cpp`, 302-325: `grow`. -/
def Dict.grow (d : Dict) : Except Stop Dict :=
  match enterAll hashStr (wordOf d.tb) (List.range d.lim) (.new ((d.lim + growthStep) / 5)) with
  | none => .error .undefined
  | some h => .ok { d with htb := h, lim := d.lim + growthStep }

/-- `dictionary.cpp`, 161-162, 169; 206-207, 211; 371-374; 390-393: an entry is put behind the others and entered
into the hash table; the key found there. -/
def Dict.add (d : Dict) (w : Str) (freq : Int) : Except Stop (Nat × Dict) :=
  if w.length + 1 ≥ d.stSize then .error .exit
  else if d.tb.length ≥ d.lim then .error .undefined
  else
    let tb := d.tb ++ [⟨w, d.tb.length, freq⟩]
    match d.htb.enter hashStr (wordOf tb) d.tb.length with
    | none => .error .undefined
    | some r => .ok (r.1, { d with tb := tb, htb := r.2 })

/-- `if (++n==lim) grow();` -/
def Dict.grown (d : Dict) : Except Stop Dict := if d.tb.length = d.lim then d.grow else .ok d

/-- `htb->search((char *)&w, HT_FIND)`. -/
def Dict.find (d : Dict) (w : Str) : Option (Option Nat) := d.htb.find hashStr (wordOf d.tb) w

/-- `ptr->code`. -/
def Dict.codeAt (d : Dict) (k : Nat) : Nat := (d.tb[k]?.map Entry.code).getD 0

/-- `dictionary.cpp`, 352-356: `getcode`; -1 is `none`. -/
def Dict.getcode (d : Dict) (w : Str) : Except Stop (Option Nat) :=
  match d.find w with
  | none => .error .undefined
  | some r => .ok (r.map d.codeAt)

/-- `dictionary.cpp`, 369-377: the entry for unknown words. -/
def Dict.startOov (d : Dict) : Except Stop Dict :=
  match d.oovCode with
  | some _ => .ok d
  | none =>
    match d.add oov 0 with
    | .error e => .error e
    | .ok r => Dict.grown { r.2 with oovCode := some d.tb.length }

/-- `dictionary.cpp`, 379-386: the dictionary for unknown words. -/
def Dict.lookOovlex (d : Dict) (w : Str) : Except Stop Dict :=
  match d.oovlex with
  | none => .error .undefined
  | some none => .ok d
  | some (some f) =>
    .ok { d with inOovLex := (f w).isSome, oovLexCode := match f w with | some c => some c | none => d.oovLexCode }

/-- `dictionary.cpp`, 358-398: `encode`; the fuel bounds the depth of the recursion. -/
def encodeLoop : Nat → Dict → Str → Except Stop (Nat × Dict)
  | 0, _, _ => .error .endless
  | fuel + 1, d, w0 =>
    let w := if w0 = [] then oov else w0
    match d.find w with
    | none => .error .undefined
    | some (some k) => .ok (d.codeAt k, d)
    | some none =>
      if d.ifl then
        match d.add w 0 with
        | .error e => .error e
        | .ok r =>
          match r.2.grown with
          | .error e => .error e
          | .ok d1 => .ok (d.tb.length, d1)
      else
        match d.startOov with
        | .error e => .error e
        | .ok d1 =>
          match d1.lookOovlex w with
          | .error e => .error e
          | .ok d2 => encodeLoop fuel d2 oov

/-- `dictionary.cpp`, 358-398: `encode`; the second call finds the word, or there is no end. -/
def Dict.encode (d : Dict) (w : Str) : Except Stop (Nat × Dict) := encodeLoop 2 d w

/-- `dictionary.cpp`, 401-408: `decode`. -/
def Dict.decode (d : Dict) (c : Int) : Str := if 0 ≤ c ∧ c < d.tb.length then wordOf d.tb c.toNat else oov

/-- `dictionary.h`, 103: `incflag`. -/
def Dict.incflag (d : Dict) (v : Bool) : Dict := { d with ifl := v }

/-- `dictionary.h`, 92: `oovcode` with an argument that is not negative. -/
def Dict.setOovcode (d : Dict) (v : Nat) : Dict := { d with oovCode := some v }

/-- `dictionary.h`, 115-119: `genoovcode`. -/
def Dict.genoovcode (d : Dict) : Except Stop Dict :=
  match d.encode oov with
  | .error e => .error e
  | .ok r => .ok (r.2.setOovcode r.1)

/-- `dictionary.h`, 136: `incfreq`. -/
def Dict.incfreq (d : Dict) (code : Nat) (value : Int) : Except Stop Dict :=
  if code < d.tb.length then
    .ok { d with tb := d.tb.modify code (fun e => { e with freq := e.freq + value }), total := d.total + value }
  else .error .undefined

/-- `dictionary.h`, 143-149: `freq` with a value that is not negative; the code may be -1. -/
def Dict.setFreq (d : Dict) (code : Option Nat) (value : Int) : Except Stop Dict :=
  match code.bind fun c => d.tb[c]?.map fun e => (c, e) with
  | none => .error .undefined
  | some (c, e) =>
    .ok { d with tb := d.tb.modify c (fun e => { e with freq := value }), total := d.total + value - e.freq }

/-- `dictionary.h`, 128-133: `setoovrate`; `oovfreq` is the frequency computed. -/
def Dict.setoovrate (d : Dict) (oovfreq : Int) : Except Stop Dict :=
  match d.encode oov with
  | .error e => .error e
  | .ok r => r.2.setFreq r.2.oovCode oovfreq

/-! ## Reading and writing -/

/-- `inp >> setw(MAX_WORD) >> buffer`: white space is skipped, then at most 999 characters are read. -/
def readWord (s : Str) : Option (Str × Str) :=
  let t := s.dropWhile isSpace
  let w := (t.take 999).takeWhile fun c => !isSpace c
  if t = [] then none else some (w, t.drop w.length)

/-- The buffer as a C string. -/
def cstring (w : Str) : Str := w.takeWhile (· != 0)

/-- `dictionary.cpp`, 100-120: the loop of `generate`; `is` are the interruption symbols. The fuel is the length
of the text. -/
def generateLoop (is : Str) : Nat → Str → Dict → Except Stop Dict
  | 0, _, d => .ok d
  | fuel + 1, s, d =>
    match readWord s with
    | none => .ok d
    | some (buffer, rest) =>
      let w := cstring buffer
      if w = [] then generateLoop is fuel rest d
      else if w.length = 1 ∧ w.all is.contains then generateLoop is fuel rest d
      else
        match d.encode w with
        | .error e => .error e
        | .ok (c, d1) =>
          match d1.incfreq c 1 with
          | .error e => .error e
          | .ok d2 => generateLoop is fuel rest d2

/-- `dictionary.cpp`, 85-126: `generate`. -/
def Dict.generate (d : Dict) (is text : Str) : Except Stop Dict :=
  match generateLoop is (text.length + 1) text (d.incflag true) with
  | .error e => .error e
  | .ok d1 => .ok (d1.incflag false)

/-- The decimal digits of a whole number. -/
def decimalInt (i : Int) : Str := if i < 0 then 45 :: decimal i.natAbs else decimal i.natAbs

/-- `dictionary.cpp`, 226-230: `save`. -/
def Dict.save (d : Dict) : Str :=
  decimal d.tb.length ++ [10] ++ d.tb.flatMap fun e => e.word ++ [32] ++ decimalInt e.freq ++ [10]

/-- The digits at the beginning and the rest. -/
def spanDigits (s : Str) : Str × Str := s.span fun c => 48 ≤ c && c ≤ 57

/-- The value of digits. -/
def digitsValue (s : Str) : Nat := s.foldl (fun v c => v * 10 + (c.toNat - 48)) 0

/-- Whether there is a minus sign, the digits and the rest. -/
def signed : Str → Bool × Str × Str
  | 45 :: u => (true, spanDigits u)
  | 43 :: u => (false, spanDigits u)
  | u => (false, spanDigits u)

/-- `inp >> number`: white space, a sign, digits. -/
def readInt (s : Str) : Option (Int × Str) :=
  let r := signed (s.dropWhile isSpace)
  if r.2.1 = [] then none
  else some (if r.1 then - (digitsValue r.2.1 : Int) else digitsValue r.2.1, r.2.2)

/-- `dictionary.cpp`, 196-222: the loop of `load`; `n` entries are left. -/
def loadLoop : Nat → Str → Dict → Except Stop Dict
  | 0, _, d => .ok d
  | n + 1, s, d =>
    match readWord s with
    | none => .error .input
    | some (buffer, rest) =>
      let w := cstring buffer
      if w.length = 999 then .error .exit
      else
        match readInt rest with
        | none => .error .input
        | some (f, rest1) =>
          match d.add w f with
          | .error e => .error e
          | .ok (k, d1) =>
            if k ≠ d.tb.length then .error .exit
            else
              match Dict.grown { d1 with
                  total := d1.total + f, oovCode := if w = oov then some d.tb.length else d1.oovCode } with
              | .error e => .error e
              | .ok d2 => loadLoop n rest1 d2

/-- `dictionary.cpp`, 188-224: `load` from a stream. -/
def Dict.load (d : Dict) (text : Str) : Except Stop Dict :=
  match readInt text with
  | none => .error .input
  | some (size, rest) => loadLoop size.toNat rest d

/-! ## Sorted copies -/

/-- `(int)` of a `long long`. -/
def toInt32 (x : Int) : Int := (x + 2 ^ 31) % 2 ^ 32 - 2 ^ 31

/-- The bytes of a C string are compared as unsigned numbers. -/
def strcmp : Str → Str → Int
  | [], [] => 0
  | [], _ :: _ => -1
  | _ :: _, [] => 1
  | a :: s, b :: t => if a = b then strcmp s t else (a.toNat : Int) - b.toNat

/-- `dictionary.cpp`, 233-240: `cmpdictentry`. -/
def cmpdictentry (a b : Entry) : Int :=
  if b.freq - a.freq ≠ 0 then toInt32 (b.freq - a.freq) else strcmp a.word b.word

/-- `dictionary.cpp`, 274-281: the codes are given anew; `old` is `d->oov_code`. -/
def recode (old : Option Nat) : List Entry → Nat → Option Nat → List Entry × Option Nat
  | [], _, oc => ([], oc)
  | e :: l, i, oc =>
    let r := recode old l (i + 1) (if old = some e.code then some i else oc)
    ({ e with code := i } :: r.1, r.2)

/-- `dictionary.cpp`, 242-283: the copy of a dictionary whose table, after `qsort`, is `tb`. The field `oovlex` is
not initialized. -/
def Dict.copyWith (d : Dict) (tb : List Entry) : Except Stop Dict :=
  if d.tb.any fun e => e.word.length + 1 ≥ d.lim * 10 then .error .exit
  else
    let r := recode d.oovCode tb 0 none
    match enterAll hashStr (wordOf r.1) (List.range r.1.length) (.new (d.lim / 5)) with
    | none => .error .undefined
    | some h => .ok
      { tb := r.1, lim := d.lim, htb := h, total := d.total, oovCode := r.2, ifl := false, stSize := d.lim * 10,
        oovlex := none, inOovLex := false, oovLexCode := none }

/-- What `qsort` may leave: the same entries, in an order with which the comparison agrees. -/
def Sorted (tb tb' : List Entry) : Prop := tb'.Perm tb ∧ tb'.Pairwise fun a b => cmpdictentry a b ≤ 0

end Verif.Irstlm
