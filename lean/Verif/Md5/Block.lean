import Verif.Md5.Table
import Verif.Md5.Model
import Verif.ListAux
import Mathlib.Tactic.Ring

/-!
The model of one block computes what RFC 1321 says.
-/
set_option linter.unusedVariables false
set_option linter.unusedSimpArgs false

namespace Verif.Md5
open Verif

/-! The words in the order of the specification after 0, 1, 2 or 3 steps of a group of four. -/
def Regs.v0 (r : Regs) : Spec.Four := (r.a, r.b, r.c, r.d)
def Regs.v1 (r : Regs) : Spec.Four := (r.d, r.a, r.b, r.c)
def Regs.v2 (r : Regs) : Spec.Four := (r.c, r.d, r.a, r.b)
def Regs.v3 (r : Regs) : Spec.Four := (r.b, r.c, r.d, r.a)

theorem rotateLeft_eq (x : Word) {n : Nat} (h : n < 32) : rotateLeft x n = x.rotateLeft n := by
  unfold rotateLeft
  rw [BitVec.rotateLeft_def, Nat.mod_eq_of_lt h]

section
variable {x : Nat → Word} {r : Regs} {f : Word → Word → Word → Word} {k s : Nat} {ac : Word} (i : Nat)

theorem step_a (hs' : s < 32) (hf : Spec.func i = f) (hk : Spec.source i = k) (hs : Spec.amount i = s) (ht : Spec.T (i + 1) = ac) :
    Spec.step x r.v0 i = (callA f x k s ac r).v1 := by
  unfold Spec.step Regs.v0 Regs.v1 callA mixed
  simp only [hf, hk, hs, ht, rotateLeft_eq _ hs']
  rw [BitVec.add_comm r.b]

theorem step_d (hs' : s < 32) (hf : Spec.func i = f) (hk : Spec.source i = k) (hs : Spec.amount i = s) (ht : Spec.T (i + 1) = ac) :
    Spec.step x r.v1 i = (callD f x k s ac r).v2 := by
  unfold Spec.step Regs.v1 Regs.v2 callD mixed
  simp only [hf, hk, hs, ht, rotateLeft_eq _ hs']
  rw [BitVec.add_comm r.a]

theorem step_c (hs' : s < 32) (hf : Spec.func i = f) (hk : Spec.source i = k) (hs : Spec.amount i = s) (ht : Spec.T (i + 1) = ac) :
    Spec.step x r.v2 i = (callC f x k s ac r).v3 := by
  unfold Spec.step Regs.v2 Regs.v3 callC mixed
  simp only [hf, hk, hs, ht, rotateLeft_eq _ hs']
  rw [BitVec.add_comm r.d]

theorem step_b (hs' : s < 32) (hf : Spec.func i = f) (hk : Spec.source i = k) (hs : Spec.amount i = s) (ht : Spec.T (i + 1) = ac) :
    Spec.step x r.v3 i = (callB f x k s ac r).v0 := by
  unfold Spec.step Regs.v3 Regs.v0 callB mixed
  simp only [hf, hk, hs, ht, rotateLeft_eq _ hs']
  rw [BitVec.add_comm r.c]
end

theorem const {i : Nat} (hi : i < 64) {ac : Word} (h : BitVec.ofNat 32 (Table.table.getD i 0) = ac) : Spec.T (i + 1) = ac :=
  (Table.T_eq hi).trans h

theorem round1_eq (x : Nat → Word) (r : Regs) : [0, 1, 2, 3, 4, 5, 6, 7, 8, 9, 10, 11, 12, 13, 14, 15].foldl (Spec.step x) r.v0 = (round1 x r).v0 := by
  simp only [List.foldl]
  rw [step_a (f := F) (k := 0) (s := 7) (ac := 0xd76aa478) 0 (by decide) rfl rfl rfl (const (by decide) (by decide +kernel))]
  rw [step_d (f := F) (k := 1) (s := 12) (ac := 0xe8c7b756) 1 (by decide) rfl rfl rfl (const (by decide) (by decide +kernel))]
  rw [step_c (f := F) (k := 2) (s := 17) (ac := 0x242070db) 2 (by decide) rfl rfl rfl (const (by decide) (by decide +kernel))]
  rw [step_b (f := F) (k := 3) (s := 22) (ac := 0xc1bdceee) 3 (by decide) rfl rfl rfl (const (by decide) (by decide +kernel))]
  rw [step_a (f := F) (k := 4) (s := 7) (ac := 0xf57c0faf) 4 (by decide) rfl rfl rfl (const (by decide) (by decide +kernel))]
  rw [step_d (f := F) (k := 5) (s := 12) (ac := 0x4787c62a) 5 (by decide) rfl rfl rfl (const (by decide) (by decide +kernel))]
  rw [step_c (f := F) (k := 6) (s := 17) (ac := 0xa8304613) 6 (by decide) rfl rfl rfl (const (by decide) (by decide +kernel))]
  rw [step_b (f := F) (k := 7) (s := 22) (ac := 0xfd469501) 7 (by decide) rfl rfl rfl (const (by decide) (by decide +kernel))]
  rw [step_a (f := F) (k := 8) (s := 7) (ac := 0x698098d8) 8 (by decide) rfl rfl rfl (const (by decide) (by decide +kernel))]
  rw [step_d (f := F) (k := 9) (s := 12) (ac := 0x8b44f7af) 9 (by decide) rfl rfl rfl (const (by decide) (by decide +kernel))]
  rw [step_c (f := F) (k := 10) (s := 17) (ac := 0xffff5bb1) 10 (by decide) rfl rfl rfl (const (by decide) (by decide +kernel))]
  rw [step_b (f := F) (k := 11) (s := 22) (ac := 0x895cd7be) 11 (by decide) rfl rfl rfl (const (by decide) (by decide +kernel))]
  rw [step_a (f := F) (k := 12) (s := 7) (ac := 0x6b901122) 12 (by decide) rfl rfl rfl (const (by decide) (by decide +kernel))]
  rw [step_d (f := F) (k := 13) (s := 12) (ac := 0xfd987193) 13 (by decide) rfl rfl rfl (const (by decide) (by decide +kernel))]
  rw [step_c (f := F) (k := 14) (s := 17) (ac := 0xa679438e) 14 (by decide) rfl rfl rfl (const (by decide) (by decide +kernel))]
  rw [step_b (f := F) (k := 15) (s := 22) (ac := 0x49b40821) 15 (by decide) rfl rfl rfl (const (by decide) (by decide +kernel))]
  rfl

theorem round2_eq (x : Nat → Word) (r : Regs) : [16, 17, 18, 19, 20, 21, 22, 23, 24, 25, 26, 27, 28, 29, 30, 31].foldl (Spec.step x) r.v0 = (round2 x r).v0 := by
  simp only [List.foldl]
  rw [step_a (f := G) (k := 1) (s := 5) (ac := 0xf61e2562) 16 (by decide) rfl rfl rfl (const (by decide) (by decide +kernel))]
  rw [step_d (f := G) (k := 6) (s := 9) (ac := 0xc040b340) 17 (by decide) rfl rfl rfl (const (by decide) (by decide +kernel))]
  rw [step_c (f := G) (k := 11) (s := 14) (ac := 0x265e5a51) 18 (by decide) rfl rfl rfl (const (by decide) (by decide +kernel))]
  rw [step_b (f := G) (k := 0) (s := 20) (ac := 0xe9b6c7aa) 19 (by decide) rfl rfl rfl (const (by decide) (by decide +kernel))]
  rw [step_a (f := G) (k := 5) (s := 5) (ac := 0xd62f105d) 20 (by decide) rfl rfl rfl (const (by decide) (by decide +kernel))]
  rw [step_d (f := G) (k := 10) (s := 9) (ac := 0x2441453) 21 (by decide) rfl rfl rfl (const (by decide) (by decide +kernel))]
  rw [step_c (f := G) (k := 15) (s := 14) (ac := 0xd8a1e681) 22 (by decide) rfl rfl rfl (const (by decide) (by decide +kernel))]
  rw [step_b (f := G) (k := 4) (s := 20) (ac := 0xe7d3fbc8) 23 (by decide) rfl rfl rfl (const (by decide) (by decide +kernel))]
  rw [step_a (f := G) (k := 9) (s := 5) (ac := 0x21e1cde6) 24 (by decide) rfl rfl rfl (const (by decide) (by decide +kernel))]
  rw [step_d (f := G) (k := 14) (s := 9) (ac := 0xc33707d6) 25 (by decide) rfl rfl rfl (const (by decide) (by decide +kernel))]
  rw [step_c (f := G) (k := 3) (s := 14) (ac := 0xf4d50d87) 26 (by decide) rfl rfl rfl (const (by decide) (by decide +kernel))]
  rw [step_b (f := G) (k := 8) (s := 20) (ac := 0x455a14ed) 27 (by decide) rfl rfl rfl (const (by decide) (by decide +kernel))]
  rw [step_a (f := G) (k := 13) (s := 5) (ac := 0xa9e3e905) 28 (by decide) rfl rfl rfl (const (by decide) (by decide +kernel))]
  rw [step_d (f := G) (k := 2) (s := 9) (ac := 0xfcefa3f8) 29 (by decide) rfl rfl rfl (const (by decide) (by decide +kernel))]
  rw [step_c (f := G) (k := 7) (s := 14) (ac := 0x676f02d9) 30 (by decide) rfl rfl rfl (const (by decide) (by decide +kernel))]
  rw [step_b (f := G) (k := 12) (s := 20) (ac := 0x8d2a4c8a) 31 (by decide) rfl rfl rfl (const (by decide) (by decide +kernel))]
  rfl

theorem round3_eq (x : Nat → Word) (r : Regs) : [32, 33, 34, 35, 36, 37, 38, 39, 40, 41, 42, 43, 44, 45, 46, 47].foldl (Spec.step x) r.v0 = (round3 x r).v0 := by
  simp only [List.foldl]
  rw [step_a (f := H) (k := 5) (s := 4) (ac := 0xfffa3942) 32 (by decide) rfl rfl rfl (const (by decide) (by decide +kernel))]
  rw [step_d (f := H) (k := 8) (s := 11) (ac := 0x8771f681) 33 (by decide) rfl rfl rfl (const (by decide) (by decide +kernel))]
  rw [step_c (f := H) (k := 11) (s := 16) (ac := 0x6d9d6122) 34 (by decide) rfl rfl rfl (const (by decide) (by decide +kernel))]
  rw [step_b (f := H) (k := 14) (s := 23) (ac := 0xfde5380c) 35 (by decide) rfl rfl rfl (const (by decide) (by decide +kernel))]
  rw [step_a (f := H) (k := 1) (s := 4) (ac := 0xa4beea44) 36 (by decide) rfl rfl rfl (const (by decide) (by decide +kernel))]
  rw [step_d (f := H) (k := 4) (s := 11) (ac := 0x4bdecfa9) 37 (by decide) rfl rfl rfl (const (by decide) (by decide +kernel))]
  rw [step_c (f := H) (k := 7) (s := 16) (ac := 0xf6bb4b60) 38 (by decide) rfl rfl rfl (const (by decide) (by decide +kernel))]
  rw [step_b (f := H) (k := 10) (s := 23) (ac := 0xbebfbc70) 39 (by decide) rfl rfl rfl (const (by decide) (by decide +kernel))]
  rw [step_a (f := H) (k := 13) (s := 4) (ac := 0x289b7ec6) 40 (by decide) rfl rfl rfl (const (by decide) (by decide +kernel))]
  rw [step_d (f := H) (k := 0) (s := 11) (ac := 0xeaa127fa) 41 (by decide) rfl rfl rfl (const (by decide) (by decide +kernel))]
  rw [step_c (f := H) (k := 3) (s := 16) (ac := 0xd4ef3085) 42 (by decide) rfl rfl rfl (const (by decide) (by decide +kernel))]
  rw [step_b (f := H) (k := 6) (s := 23) (ac := 0x4881d05) 43 (by decide) rfl rfl rfl (const (by decide) (by decide +kernel))]
  rw [step_a (f := H) (k := 9) (s := 4) (ac := 0xd9d4d039) 44 (by decide) rfl rfl rfl (const (by decide) (by decide +kernel))]
  rw [step_d (f := H) (k := 12) (s := 11) (ac := 0xe6db99e5) 45 (by decide) rfl rfl rfl (const (by decide) (by decide +kernel))]
  rw [step_c (f := H) (k := 15) (s := 16) (ac := 0x1fa27cf8) 46 (by decide) rfl rfl rfl (const (by decide) (by decide +kernel))]
  rw [step_b (f := H) (k := 2) (s := 23) (ac := 0xc4ac5665) 47 (by decide) rfl rfl rfl (const (by decide) (by decide +kernel))]
  rfl

theorem round4_eq (x : Nat → Word) (r : Regs) : [48, 49, 50, 51, 52, 53, 54, 55, 56, 57, 58, 59, 60, 61, 62, 63].foldl (Spec.step x) r.v0 = (round4 x r).v0 := by
  simp only [List.foldl]
  rw [step_a (f := I) (k := 0) (s := 6) (ac := 0xf4292244) 48 (by decide) rfl rfl rfl (const (by decide) (by decide +kernel))]
  rw [step_d (f := I) (k := 7) (s := 10) (ac := 0x432aff97) 49 (by decide) rfl rfl rfl (const (by decide) (by decide +kernel))]
  rw [step_c (f := I) (k := 14) (s := 15) (ac := 0xab9423a7) 50 (by decide) rfl rfl rfl (const (by decide) (by decide +kernel))]
  rw [step_b (f := I) (k := 5) (s := 21) (ac := 0xfc93a039) 51 (by decide) rfl rfl rfl (const (by decide) (by decide +kernel))]
  rw [step_a (f := I) (k := 12) (s := 6) (ac := 0x655b59c3) 52 (by decide) rfl rfl rfl (const (by decide) (by decide +kernel))]
  rw [step_d (f := I) (k := 3) (s := 10) (ac := 0x8f0ccc92) 53 (by decide) rfl rfl rfl (const (by decide) (by decide +kernel))]
  rw [step_c (f := I) (k := 10) (s := 15) (ac := 0xffeff47d) 54 (by decide) rfl rfl rfl (const (by decide) (by decide +kernel))]
  rw [step_b (f := I) (k := 1) (s := 21) (ac := 0x85845dd1) 55 (by decide) rfl rfl rfl (const (by decide) (by decide +kernel))]
  rw [step_a (f := I) (k := 8) (s := 6) (ac := 0x6fa87e4f) 56 (by decide) rfl rfl rfl (const (by decide) (by decide +kernel))]
  rw [step_d (f := I) (k := 15) (s := 10) (ac := 0xfe2ce6e0) 57 (by decide) rfl rfl rfl (const (by decide) (by decide +kernel))]
  rw [step_c (f := I) (k := 6) (s := 15) (ac := 0xa3014314) 58 (by decide) rfl rfl rfl (const (by decide) (by decide +kernel))]
  rw [step_b (f := I) (k := 13) (s := 21) (ac := 0x4e0811a1) 59 (by decide) rfl rfl rfl (const (by decide) (by decide +kernel))]
  rw [step_a (f := I) (k := 4) (s := 6) (ac := 0xf7537e82) 60 (by decide) rfl rfl rfl (const (by decide) (by decide +kernel))]
  rw [step_d (f := I) (k := 11) (s := 10) (ac := 0xbd3af235) 61 (by decide) rfl rfl rfl (const (by decide) (by decide +kernel))]
  rw [step_c (f := I) (k := 2) (s := 15) (ac := 0x2ad7d2bb) 62 (by decide) rfl rfl rfl (const (by decide) (by decide +kernel))]
  rw [step_b (f := I) (k := 9) (s := 21) (ac := 0xeb86d391) 63 (by decide) rfl rfl rfl (const (by decide) (by decide +kernel))]
  rfl

theorem rounds_eq (x : Nat → Word) (r : Regs) :
    (List.range 64).foldl (Spec.step x) r.v0 = (round4 x (round3 x (round2 x (round1 x r)))).v0 := by
  have h : List.range 64 = [0, 1, 2, 3, 4, 5, 6, 7, 8, 9, 10, 11, 12, 13, 14, 15] ++ [16, 17, 18, 19, 20, 21, 22, 23, 24, 25, 26, 27, 28, 29, 30, 31] ++ [32, 33, 34, 35, 36, 37, 38, 39, 40, 41, 42, 43, 44, 45, 46, 47] ++ [48, 49, 50, 51, 52, 53, 54, 55, 56, 57, 58, 59, 60, 61, 62, 63] := by decide
  rw [h, List.foldl_append, List.foldl_append, List.foldl_append, round1_eq, round2_eq, round3_eq, round4_eq]

theorem transform_eq (r : Regs) (b : Str) : (transform r b).v0 = Spec.block r.v0 (decodeWord b) := by
  unfold Spec.block
  simp only [rounds_eq]
  rfl

/-! ## Only the first sixteen words of a block are used -/

theorem source_lt {i : Nat} (h : i < 64) : Spec.source i < 16 := by
  have : ∀ n : Fin 64, Spec.source n.1 < 16 := by decide
  exact this ⟨i, h⟩

theorem block_congr {x y : Nat → Word} (h : ∀ j, j < 16 → x j = y j) (r : Spec.Four) : Spec.block r x = Spec.block r y := by
  unfold Spec.block
  have : (List.range 64).foldl (Spec.step x) r = (List.range 64).foldl (Spec.step y) r := by
    have key : ∀ l : List Nat, (∀ i ∈ l, i < 64) → ∀ r, l.foldl (Spec.step x) r = l.foldl (Spec.step y) r := by
      intro l
      induction l with
      | nil => intro _ _; rfl
      | cons i l ih =>
        intro hl r
        simp only [List.foldl]
        have : Spec.step x r i = Spec.step y r i := by
          unfold Spec.step
          rw [h _ (source_lt (hl i (by simp)))]
        rw [this]
        exact ih (fun j hj => hl j (by simp [hj])) _
    exact key _ (by simp) _
  simp only [this]

/-! ## Words and bytes -/

theorem or_bytes {a b c d : Nat} (ha : a < 256) (hb : b < 256) (hc : c < 256) (hd : d < 256) :
    a ||| (b <<< 8) ||| (c <<< 16) ||| (d <<< 24) = a + 256 * (b + 256 * (c + 256 * d)) := by
  simp only [Nat.shiftLeft_eq]
  have h1 := Nat.two_pow_add_eq_or_of_lt (i := 8) (b := a) ha b
  have h2 := Nat.two_pow_add_eq_or_of_lt (i := 16) (b := a + 256 * b) (by omega) c
  have h3 := Nat.two_pow_add_eq_or_of_lt (i := 24) (b := a + 256 * b + 65536 * c) (by omega) d
  rw [Nat.or_comm a, Nat.mul_comm b, ← h1, Nat.mul_comm c, Nat.mul_comm d]
  rw [show 2 ^ 8 * b + a = a + 256 * b by omega, Nat.or_comm _ (2 ^ 16 * c), ← h2,
    show 2 ^ 16 * c + (a + 256 * b) = a + 256 * b + 65536 * c by omega, Nat.or_comm _ (2 ^ 24 * d), ← h3]
  omega

theorem decode_bytes (a b c d : Byte) :
    BitVec.ofNat 32 a.toNat ||| (BitVec.ofNat 32 b.toNat <<< 8) ||| (BitVec.ofNat 32 c.toNat <<< 16) ||| (BitVec.ofNat 32 d.toNat <<< 24) =
      BitVec.ofNat 32 (Spec.value [a, b, c, d]) := by
  have ha := a.toNat_lt; have hb := b.toNat_lt; have hc := c.toNat_lt; have hd := d.toNat_lt
  apply BitVec.eq_of_toNat_eq
  have e : ∀ (n k : Nat), n < 256 → k ≤ 24 → (BitVec.ofNat 32 n <<< k).toNat = n <<< k := by
    intro n k hn hk
    rw [BitVec.toNat_shiftLeft, BitVec.toNat_ofNat, Nat.mod_eq_of_lt (show n < 2 ^ 32 by omega), Nat.mod_eq_of_lt]
    rw [Nat.shiftLeft_eq]
    have : 2 ^ k ≤ 2 ^ 24 := Nat.pow_le_pow_right (by omega) hk
    calc n * 2 ^ k < 256 * 2 ^ k := Nat.mul_lt_mul_of_pos_right hn (by positivity)
      _ ≤ 256 * 2 ^ 24 := Nat.mul_le_mul_left _ this
      _ = 2 ^ 32 := by norm_num
  rw [BitVec.toNat_or, BitVec.toNat_or, BitVec.toNat_or, e _ _ hb (by omega), e _ _ hc (by omega), e _ _ hd (by omega), BitVec.toNat_ofNat,
    Nat.mod_eq_of_lt (by omega), or_bytes (by omega) (by omega) (by omega) (by omega), BitVec.toNat_ofNat]
  simp only [Spec.value]
  omega

theorem drop_take_four {l : Str} {k : Nat} (h : k + 4 ≤ l.length) :
    (l.drop k).take 4 = [l.getD k 0, l.getD (k + 1) 0, l.getD (k + 2) 0, l.getD (k + 3) 0] := by
  apply List.ext_getElem
  · simp; omega
  · intro n h1 h2
    have : n = 0 ∨ n = 1 ∨ n = 2 ∨ n = 3 := by simp at h2; omega
    rw [List.getElem_take, List.getElem_drop]
    rcases this with rfl | rfl | rfl | rfl <;>
      simp [List.getD_eq_getElem?_getD, List.getElem?_eq_getElem (show k + 1 < l.length by omega), List.getElem?_eq_getElem (show k + 2 < l.length by omega),
        List.getElem?_eq_getElem (show k + 3 < l.length by omega), List.getElem?_eq_getElem (show k < l.length by omega)]

theorem decode_wordAt {p : Str} {i j : Nat} (hj : j < 16) (hp : 64 * i + 64 ≤ p.length) :
    decodeWord ((p.drop (64 * i)).take 64) j = Spec.wordAt p i j := by
  unfold decodeWord Spec.wordAt
  rw [decode_bytes]
  congr 2
  rw [drop_take_four (by omega)]
  have : ∀ k, k < 64 → ((p.drop (64 * i)).take 64).getD k 0 = p.getD (64 * i + k) 0 := by
    intro k hk
    simp [List.getD_eq_getElem?_getD, List.getElem?_take, hk, List.getElem?_drop]
  rw [this _ (by omega), this _ (by omega), this _ (by omega), this _ (by omega)]
  simp only [Nat.add_assoc]

theorem byte_ofNat_mod (n : Nat) : UInt8.ofNat (n % 256) = UInt8.ofNat n := by
  apply UInt8.toNat_inj.1
  simp

theorem encode_eq (w : Word) : encodeWord w = Spec.littleEndian 4 w.toNat := by
  have h : ∀ x : Word, UInt8.ofNat (x &&& 0xff).toNat = UInt8.ofNat x.toNat := by
    intro x
    rw [BitVec.toNat_and]
    have : (0xff : Word).toNat = 2 ^ 8 - 1 := by decide
    rw [this, Nat.and_two_pow_sub_one_eq_mod]
    exact byte_ofNat_mod _
  unfold encodeWord
  rw [h, h, h, h]
  simp only [Spec.littleEndian, BitVec.toNat_ushiftRight, Nat.shiftRight_eq_div_pow, Nat.div_div_eq_div_mul]

theorem littleEndian_append (m n x : Nat) : Spec.littleEndian (m + n) x = Spec.littleEndian m x ++ Spec.littleEndian n (x / 256 ^ m) := by
  induction m generalizing x with
  | zero => simp [Spec.littleEndian]
  | succ m ih =>
    rw [Nat.add_right_comm]
    simp only [Spec.littleEndian, List.cons_append]
    rw [ih, Nat.div_div_eq_div_mul, Nat.pow_succ, Nat.mul_comm 256]

theorem littleEndian_mod (n x : Nat) : Spec.littleEndian n (x % 256 ^ n) = Spec.littleEndian n x := by
  induction n generalizing x with
  | zero => rfl
  | succ n ih =>
    simp only [Spec.littleEndian]
    have h1 : UInt8.ofNat (x % 256 ^ (n + 1)) = UInt8.ofNat x := by
      rw [← byte_ofNat_mod, Nat.mod_mod_of_dvd _ (show 256 ∣ 256 ^ (n + 1) from Dvd.intro_left (256 ^ n) (Nat.pow_succ ..).symm), byte_ofNat_mod]
    have h2 : x % 256 ^ (n + 1) / 256 = x / 256 % 256 ^ n := by
      rw [Nat.pow_succ, Nat.mul_comm, Nat.mod_mul_right_div_self]
    rw [h1, h2, ih]

theorem littleEndian_length (n x : Nat) : (Spec.littleEndian n x).length = n := by
  induction n generalizing x with
  | zero => rfl
  | succ n ih => simp [Spec.littleEndian, ih]

/-- The two words of the counter are its eight bytes. -/
theorem bits_eq {lo hi : Word} {n : Nat} (h : lo.toNat + 2 ^ 32 * hi.toNat = n) : encodeWord lo ++ encodeWord hi = Spec.littleEndian 8 n := by
  rw [encode_eq, encode_eq, show (8 : Nat) = 4 + 4 from rfl, littleEndian_append, ← littleEndian_mod 4 n]
  have := lo.isLt
  congr 2 <;> omega

end Verif.Md5
