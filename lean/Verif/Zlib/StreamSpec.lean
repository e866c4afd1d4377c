import Verif.Zlib.BlockSpec

/-!
The commands of a block, the blocks and the whole stream (RFC 1951, section 3.2.3), in the manner
of `BlockSpec`: what the input says, or that it ends too early, or that it makes no sense.  The
commands that came before are always there.
-/

namespace Verif.Zlib

/-- One command of a block, or the end of the block (`none`). -/
inductive Command (ll dl : List Nat) (s t : Nat) : Outcome (Option Cmd) → Prop
  | cut : Code .lens ll s t .more → Command ll dl s t .more
  | wrong : Code .lens ll s t .bad → Command ll dl s t .bad
  | stop {s1 t1} : Code .lens ll s t (.got .endOfBlock s1 t1) → Command ll dl s t (.got none s1 t1)
  | lit {n s1 t1} : Code .lens ll s t (.got (.number n) s1 t1) →
      Command ll dl s t (.got (some (.lit (UInt8.ofNat n))) s1 t1)
  | cutLength {base extra s1 t1} : Code .lens ll s t (.got (.copy base extra) s1 t1) →
      Number extra s1 t1 .more → Command ll dl s t .more
  | cutDist {base extra s1 t1 n s2 t2} : Code .lens ll s t (.got (.copy base extra) s1 t1) →
      Number extra s1 t1 (.got n s2 t2) → Code .dists dl s2 t2 .more → Command ll dl s t .more
  | wrongDist {base extra s1 t1 n s2 t2} : Code .lens ll s t (.got (.copy base extra) s1 t1) →
      Number extra s1 t1 (.got n s2 t2) → Code .dists dl s2 t2 .bad → Command ll dl s t .bad
  | cutExtra {base extra s1 t1 n s2 t2 base' extra' s3 t3} :
      Code .lens ll s t (.got (.copy base extra) s1 t1) → Number extra s1 t1 (.got n s2 t2) →
      Code .dists dl s2 t2 (.got (.copy base' extra') s3 t3) → Number extra' s3 t3 .more →
      Command ll dl s t .more
  | copy {base extra s1 t1 n s2 t2 base' extra' s3 t3 n' s4 t4} :
      Code .lens ll s t (.got (.copy base extra) s1 t1) → Number extra s1 t1 (.got n s2 t2) →
      Code .dists dl s2 t2 (.got (.copy base' extra') s3 t3) → Number extra' s3 t3 (.got n' s4 t4) →
      Command ll dl s t (.got (some (.copy (base + n) (base' + n'))) s4 t4)

/-- The commands up to the end of the block. -/
inductive Commands (ll dl : List Nat) : Nat → Nat → List Cmd → Outcome Unit → Prop
  | stop {s t s1 t1} : Command ll dl s t (.got none s1 t1) → Commands ll dl s t [] (.got () s1 t1)
  | cut {s t} : Command ll dl s t .more → Commands ll dl s t [] .more
  | wrong {s t} : Command ll dl s t .bad → Commands ll dl s t [] .bad
  | next {s t c s1 t1 cs r} : Command ll dl s t (.got (some c) s1 t1) → Commands ll dl s1 t1 cs r →
      Commands ll dl s t (c :: cs) r

/-- The first `n` bytes. -/
def bytesOf (n s : Nat) : List Byte := (List.range n).map fun i => UInt8.ofNat (s / 2 ^ (8 * i))

/-- The bits up to the next byte do not count. -/
def toByte (s t : Nat) : Nat × Nat := (s / 2 ^ (t % 8), t - t % 8)

/-- A stored block (section 3.2.4): a number, the same with all bits turned, and the bytes. -/
inductive Stored (s t : Nat) : List Cmd → Outcome Unit → Prop
  | cut : t < 32 → Stored s t [] .more
  | wrong : 32 ≤ t → s % 2 ^ 16 + s / 2 ^ 16 % 2 ^ 16 ≠ 2 ^ 16 - 1 → Stored s t [] .bad
  | cutBytes : 32 ≤ t → s % 2 ^ 16 + s / 2 ^ 16 % 2 ^ 16 = 2 ^ 16 - 1 →
      t < 32 + 8 * (s % 2 ^ 16) → Stored s t [.raw (bytesOf ((t - 32) / 8) (s / 2 ^ 32))] .more
  | got : 32 + 8 * (s % 2 ^ 16) ≤ t → s % 2 ^ 16 + s / 2 ^ 16 % 2 ^ 16 = 2 ^ 16 - 1 →
      Stored s t [.raw (bytesOf (s % 2 ^ 16) (s / 2 ^ 32))]
        (.got () (s / 2 ^ (32 + 8 * (s % 2 ^ 16))) (t - (32 + 8 * (s % 2 ^ 16))))

/-- The content of a block, by its kind. -/
inductive Block : Nat → Nat → Nat → List Cmd → Outcome Unit → Prop
  | stored {s t cs r} : Stored (toByte s t).1 (toByte s t).2 cs r → Block 0 s t cs r
  | fixed {s t cs r} : Commands fixedLens fixedDists s t cs r → Block 1 s t cs r
  | cutHead {s t} : Header s t .more → Block 2 s t [] .more
  | wrongHead {s t} : Header s t .bad → Block 2 s t [] .bad
  | dynamic {s t ll dl s1 t1 cs r} : Header s t (.got (ll, dl) s1 t1) →
      Commands ll dl s1 t1 cs r → Block 2 s t cs r
  | wrong {s t} : Block 3 s t [] .bad

/-- All blocks up to the last one: one bit that tells the last one, two bits for the kind. -/
inductive Blocks : Nat → Nat → List Cmd → Outcome Unit → Prop
  | cut {s t} : t < 3 → Blocks s t [] .more
  | more {s t cs} : 3 ≤ t → Block (s / 2 % 4) (s / 8) (t - 3) cs .more → Blocks s t cs .more
  | wrong {s t cs} : 3 ≤ t → Block (s / 2 % 4) (s / 8) (t - 3) cs .bad → Blocks s t cs .bad
  | last {s t cs s1 t1} : 3 ≤ t → s % 2 = 1 →
      Block (s / 2 % 4) (s / 8) (t - 3) cs (.got () s1 t1) →
      Blocks s t cs (.got () (toByte s1 t1).1 (toByte s1 t1).2)
  | next {s t cs s1 t1 cs' r} : 3 ≤ t → s % 2 = 0 →
      Block (s / 2 % 4) (s / 8) (t - 3) cs (.got () s1 t1) → Blocks s1 t1 cs' r →
      Blocks s t (cs ++ cs') r

end Verif.Zlib
