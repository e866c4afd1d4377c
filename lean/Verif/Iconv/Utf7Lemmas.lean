import Verif.Iconv.Utf8Lemmas
import Verif.Iconv.Spec

set_option maxRecDepth 10000

namespace Verif.Iconv
open Verif Spec

/-! ## Bits -/

theorem bits_length (w n : Nat) : (bits w n).length = w := by
  induction w with
  | zero => rfl
  | succ w ih => simp [bits, ih]

theorem bits_append (a b n : Nat) : bits (a + b) n = bits a (n / 2 ^ b) ++ bits b n := by
  induction a with
  | zero => simp [bits]
  | succ a ih =>
    rw [show a + 1 + b = (a + b) + 1 by omega, bits, bits, ih, List.cons_append, Nat.div_div_eq_div_mul, ← Nat.pow_add, Nat.add_comm b a]

theorem bits_congr {w : Nat} : ∀ {m n : Nat}, m % 2 ^ w = n % 2 ^ w → bits w m = bits w n := by
  induction w with
  | zero => intros; rfl
  | succ w ih =>
    intro m n h
    have h1 : m % 2 ^ w = n % 2 ^ w := by
      have := congrArg (· % 2 ^ w) h
      simp only [Nat.mod_mod_of_dvd _ (Nat.pow_dvd_pow 2 (Nat.le_succ w))] at this
      exact this
    have h2 : m / 2 ^ w % 2 = n / 2 ^ w % 2 := by
      rw [Nat.pow_succ] at h
      have a1 := Nat.mod_mul (a := 2 ^ w) (b := 2) (x := m)
      have a2 := Nat.mod_mul (a := 2 ^ w) (b := 2) (x := n)
      rw [a1, a2, h1] at h
      have hp : 0 < 2 ^ w := Nat.two_pow_pos w
      exact Nat.eq_of_mul_eq_mul_left hp (Nat.add_left_cancel h)
    rw [bits, bits, h2, ih h1]

theorem bits_inj {w : Nat} : ∀ {m n : Nat}, bits w m = bits w n → m % 2 ^ w = n % 2 ^ w := by
  induction w with
  | zero => intro m n _; simp [Nat.mod_one]
  | succ w ih =>
    intro m n h
    rw [bits, bits] at h
    injection h with h1 h2
    have h3 := ih h2
    have h4 : m / 2 ^ w % 2 = n / 2 ^ w % 2 := by
      have e : (m / 2 ^ w % 2 = 1) ↔ (n / 2 ^ w % 2 = 1) := by simpa using h1
      omega
    rw [Nat.pow_succ, Nat.mod_mul, Nat.mod_mul, h3, h4]

/-- Splitting bits in two. -/
theorem bits_split (a b m n k : Nat) (h : n % 2 ^ b = k % 2 ^ b) (h2 : (n / 2 ^ b) % 2 ^ a = m % 2 ^ a) : bits (a + b) n = bits a m ++ bits b k := by
  rw [bits_append, bits_congr h, bits_congr h2]

/-! ## The decoder -/

theorem and3 (n : Nat) : n &&& 3 = n % 4 := and_mod n 2
theorem and15 (n : Nat) : n &&& 15 = n % 16 := and_mod n 4

theorem dataOf_eq {st : Nat} (h : st < 256) : dataOf st = st / 4 * 4 :=
  (by decide +kernel : ∀ st : Fin 256, dataOf st.1 = st.1 / 4 * 4) ⟨st, h⟩

/-- What the state of the decoder says about the bits read but not used. -/
inductive Left : Nat → List Bool → Prop
  | none : Left 1 []
  | four (y : Nat) : y < 16 → Left (16 * y + 2) (bits 4 y)
  | two (y : Nat) : y < 4 → Left (64 * y + 3) (bits 2 y)

theorem step1 (wc k i : Nat) : baseStep 1 wc k i = (4 * i, wc, k) := by
  unfold baseStep
  simp only [and3]
  rw [if_pos trivial, Nat.shiftLeft_eq]
  congr 1; omega

theorem step0 {a i : Nat} (wc k : Nat) (ha : a < 64) (hi : i < 64) : baseStep (4 * a) wc k i = (16 * (i % 16) + 2, wc * 256 + 4 * a + i / 16, k + 1) := by
  unfold baseStep
  simp only [and3, and15]
  rw [if_neg (by omega), if_pos (by omega), dataOf_eq (by omega), Nat.shiftLeft_eq, Nat.shiftLeft_eq, Nat.shiftRight_eq_div_pow]
  rw [chain (k := 4) (i % 16) (by omega) rfl, chain (v := wc * 2 ^ 8) (k := 8) wc (by omega) rfl,
    chain (k := 2) (wc * 64 + a) (by omega) (by omega)]
  congr 1
  · omega
  · congr 1; omega

theorem step2 {y i : Nat} (wc k : Nat) (hy : y < 16) (hi : i < 64) :
    baseStep (16 * y + 2) wc k i = (64 * (i % 4) + 3, wc * 256 + 16 * y + i / 4, k + 1) := by
  unfold baseStep
  simp only [and3, and15]
  rw [if_neg (by omega), if_neg (by omega), if_pos (by omega), dataOf_eq (by omega), Nat.shiftLeft_eq, Nat.shiftLeft_eq, Nat.shiftRight_eq_div_pow]
  rw [chain (k := 6) (i % 4) (by omega) rfl, chain (v := wc * 2 ^ 8) (k := 8) wc (by omega) rfl,
    chain (k := 4) (wc * 16 + y) (by omega) (by omega)]
  congr 1
  · omega
  · congr 1; omega

theorem step3 {y i : Nat} (wc k : Nat) (hy : y < 4) (hi : i < 64) : baseStep (64 * y + 3) wc k i = (1, wc * 256 + 64 * y + i, k + 1) := by
  unfold baseStep
  simp only [and3, and15]
  rw [if_neg (by omega), if_neg (by omega), if_neg (by omega), dataOf_eq (by omega), Nat.shiftLeft_eq]
  rw [chain (v := wc * 2 ^ 8) (k := 8) wc (by omega) rfl, chain (k := 6) (wc * 4 + y) (by omega) (by omega)]
  congr 2
  congr 1; omega

/-- A digit of base64. -/
def digit (d : Nat) : Byte := alphabet.getD d 0

theorem base64Value_digit {d : Nat} (h : d < 64) : base64Value (digit d) = some d :=
  (by decide +kernel : ∀ d : Fin 64, base64Value (digit d.1) = some d.1) ⟨d, h⟩

theorem digit_ne {d : Nat} (h : d < 64) : digit d ≠ 45 :=
  (by decide +kernel : ∀ d : Fin 64, digit d.1 ≠ 45) ⟨d, h⟩

theorem byte_all {p : Byte → Prop} (h : ∀ n : Fin 256, p (UInt8.ofNat n.1)) (b : Byte) : p b := by
  have := h ⟨b.toNat, UInt8.toNat_lt b⟩
  simpa using this

theorem base64Value_none (b : Byte) : base64Value b = none ↔ b ∉ alphabet :=
  byte_all (p := fun b => base64Value b = none ↔ b ∉ alphabet) (by decide +kernel) b

theorem xdirect_iff (b : Byte) : inTab xdirectTab b.toNat = true ↔ b ∈ direct ++ optional :=
  byte_all (p := fun b => inTab xdirectTab b.toNat = true ↔ b ∈ direct ++ optional) (by decide +kernel) b

theorem direct_iff (b : Byte) : inTab directTab b.toNat = true ↔ b ∈ direct :=
  byte_all (p := fun b => inTab directTab b.toNat = true ↔ b ∈ direct) (by decide +kernel) b

theorem xbase64_iff (b : Byte) : inTab xbase64Tab b.toNat = true ↔ (b ∈ alphabet ∨ b = 45) :=
  byte_all (p := fun b => inTab xbase64Tab b.toNat = true ↔ (b ∈ alphabet ∨ b = 45)) (by decide +kernel) b

/-- The high surrogates. -/
def High (u : Nat) : Prop := 0xd800 ≤ u ∧ u < 0xdc00

/-- One digit in the loop, when it is not the last of a unit. -/
theorem loop_more {d : Nat} (hd : d < 64) {rest : Str} (hr : rest ≠ []) {st wc k kmax n st' wc' k' : Nat}
    (hs : baseStep st wc k d = (st', wc', k')) (hk : k' ≠ kmax) :
    baseLoop (digit d :: rest) st wc k kmax n = baseLoop rest st' wc' k' kmax (n + 1) := by
  rw [baseLoop, base64Value_digit hd]
  simp only [hs]
  rw [if_neg hk, if_neg hr]

/-- The last digit of a unit. -/
theorem loop_last {d : Nat} (hd : d < 64) (rest : Str) {st wc k kmax n st' wc' : Nat}
    (hs : baseStep st wc k d = (st', wc', kmax)) :
    baseLoop (digit d :: rest) st wc k kmax n =
      if kmax = 2 ∧ wc' ≥ 0xd800 ∧ wc' < 0xdc00 then
        if rest = [] then .starve (n + 1) else baseLoop rest st' wc' kmax 4 (n + 1)
      else .done wc' kmax st' (n + 1) := by
  rw [baseLoop, base64Value_digit hd]
  simp only [hs, if_true]

/-- A unit: `ds` digits are read, and what is left of the bits is right. -/
theorem loop_unit {st : Nat} {lb : List Bool} (hl : Left st lb) {u : Nat} (hu : u < 0x10000) {ds : List Nat} (hd : ∀ d ∈ ds, d < 64)
    {R : List Bool} (h : lb ++ ds.flatMap (bits 6) = bits 16 u ++ R) (tail : Str) (wc k n : Nat) :
    ∃ d1 d2 st' lb', ds = d1 ++ d2 ∧ d1 ≠ [] ∧ Left st' lb' ∧ lb' ++ d2.flatMap (bits 6) = R ∧
      baseLoop (ds.map digit ++ tail) st wc k (k + 2) n =
        if k + 2 = 2 ∧ wc * 65536 + u ≥ 0xd800 ∧ wc * 65536 + u < 0xdc00 then
          if d2.map digit ++ tail = [] then .starve (n + d1.length)
          else baseLoop (d2.map digit ++ tail) st' (wc * 65536 + u) (k + 2) 4 (n + d1.length)
        else .done (wc * 65536 + u) (k + 2) st' (n + d1.length) := by
  have hlen := congrArg List.length h
  cases hl with
  | none =>
    match ds, hd, h, hlen with
    | [], _, _, hlen => simp [bits_length] at hlen; omega
    | [_], _, _, hlen => simp [bits_length] at hlen; omega
    | [_, _], _, _, hlen => simp [bits_length] at hlen; omega
    | a :: b :: c :: d2, hd, h, _ =>
      have ha := hd a (by simp); have hb := hd b (by simp); have hc := hd c (by simp)
      simp only [List.flatMap_cons, List.nil_append] at h
      rw [← List.append_assoc, ← bits_split 6 6 a (a * 64 + b) b (by omega) (by omega), ← List.append_assoc,
        ← bits_split 12 6 (a * 64 + b) ((a * 64 + b) * 64 + c) c (by omega) (by omega),
        bits_split 16 2 (((a * 64 + b) * 64 + c) / 4) _ (c % 4) (by omega) (by omega), List.append_assoc] at h
      have h1 := List.append_inj h (by rw [bits_length, bits_length])
      have h2 := bits_inj h1.1
      refine ⟨[a, b, c], d2, _, _, rfl, by simp, .two (c % 4) (by omega), h1.2, ?_⟩
      simp only [List.map_cons, List.cons_append]
      rw [loop_more ha (by simp) (step1 _ _ _) (by omega), loop_more hb (by simp) (step0 _ _ ha hb) (by omega),
        loop_last hc _ (step2 _ _ (by omega) hc)]
      rw [show (wc * 256 + 4 * a + b / 16) * 256 + 16 * (b % 16) + c / 4 = wc * 65536 + u by omega]
      rfl
  | four y hy =>
    match ds, hd, h, hlen with
    | [], _, _, hlen => simp [bits_length] at hlen; omega
    | [_], _, _, hlen => simp [bits_length] at hlen; omega
    | a :: b :: d2, hd, h, _ =>
      have ha := hd a (by simp); have hb := hd b (by simp)
      simp only [List.flatMap_cons] at h
      rw [← List.append_assoc, ← bits_split 4 6 y (y * 64 + a) a (by omega) (by omega), ← List.append_assoc,
        ← bits_split 10 6 (y * 64 + a) ((y * 64 + a) * 64 + b) b (by omega) (by omega)] at h
      have h1 := List.append_inj h (by rw [bits_length, bits_length])
      have h2 := bits_inj h1.1
      refine ⟨[a, b], d2, _, _, rfl, by simp, .none, h1.2, ?_⟩
      simp only [List.map_cons, List.cons_append]
      rw [loop_more ha (by simp) (step2 _ _ hy ha) (by omega), loop_last hb _ (step3 _ _ (by omega) hb)]
      rw [show (wc * 256 + 16 * y + a / 4) * 256 + 64 * (a % 4) + b = wc * 65536 + u by omega]
      rfl
  | two y hy =>
    match ds, hd, h, hlen with
    | [], _, _, hlen => simp [bits_length] at hlen; omega
    | [_], _, _, hlen => simp [bits_length] at hlen; omega
    | [_, _], _, _, hlen => simp [bits_length] at hlen; omega
    | a :: b :: c :: d2, hd, h, _ =>
      have ha := hd a (by simp); have hb := hd b (by simp); have hc := hd c (by simp)
      simp only [List.flatMap_cons] at h
      rw [← List.append_assoc, ← bits_split 2 6 y (y * 64 + a) a (by omega) (by omega), ← List.append_assoc,
        ← bits_split 8 6 (y * 64 + a) ((y * 64 + a) * 64 + b) b (by omega) (by omega), ← List.append_assoc,
        ← bits_split 14 6 ((y * 64 + a) * 64 + b) (((y * 64 + a) * 64 + b) * 64 + c) c (by omega) (by omega),
        bits_split 16 4 ((((y * 64 + a) * 64 + b) * 64 + c) / 16) _ (c % 16) (by omega) (by omega), List.append_assoc] at h
      have h1 := List.append_inj h (by rw [bits_length, bits_length])
      have h2 := bits_inj h1.1
      refine ⟨[a, b, c], d2, _, _, rfl, by simp, .four (c % 16) (by omega), h1.2, ?_⟩
      simp only [List.map_cons, List.cons_append]
      rw [loop_more ha (by simp) (step3 _ _ hy ha) (by omega), loop_more hb (by simp) (step1 _ _ _) (by omega),
        loop_last hc _ (step0 _ _ hb hc)]
      rw [show (wc * 256 + 64 * y + a) * 256 + 4 * b + c / 16 = wc * 65536 + u by omega]
      rfl

theorem Left.active {st : Nat} {lb : List Bool} (h : Left st lb) : st &&& 3 ≠ 0 := by
  rw [and3]
  cases h <;> omega

theorem Left.lt {st : Nat} {lb : List Bool} (h : Left st lb) : st < 256 ∧ lb.length < 6 := by
  cases h <;> simp [bits_length] <;> omega

/-- A character in base64. -/
theorem go_char {st : Nat} {lb : List Bool} (hl : Left st lb) {u : Nat} (hu : Spec.Scalar u) {ds : List Nat} (hd : ∀ d ∈ ds, d < 64)
    {R : List Bool} (h : lb ++ ds.flatMap (bits 6) = (utf16 u).flatMap (bits 16) ++ R) (tail : Str) :
    ∃ d1 d2 st' lb', ds = d1 ++ d2 ∧ d1 ≠ [] ∧ Left st' lb' ∧ lb' ++ d2.flatMap (bits 6) = R ∧ ∀ (orig : Nat) (start : Byte) (f count : Nat),
      utf7Go orig start (f + 1) st count (ds.map digit ++ tail) = (.char u (count + d1.length), st') := by
  obtain ⟨hu1, hu2⟩ := hu
  unfold utf16 at h
  split at h
  · rename_i hlt
    simp only [List.flatMap_cons, List.flatMap_nil, List.append_nil] at h
    obtain ⟨d1, d2, st', lb', e1, e2, e3, e4, e5⟩ := loop_unit hl hlt hd h tail 0 0 0
    refine ⟨d1, d2, st', lb', e1, e2, e3, e4, fun orig start f count => ?_⟩
    rw [utf7Go.eq_def]
    simp only [ne_eq, hl.active, not_false_iff, if_true]
    rw [e5, if_neg (by omega)]
    simp only [Nat.zero_mul, Nat.zero_add, Nat.reduceEqDiff, if_false, if_neg e3.active]
  · rename_i hge
    simp only [List.flatMap_cons, List.flatMap_nil, List.append_nil, List.append_assoc] at h
    obtain ⟨d1, d2, st', lb', e1, e2, e3, e4, e5⟩ := loop_unit hl (by omega) hd h tail 0 0 0
    have hd2 : ∀ d ∈ d2, d < 64 := fun d hm => hd d (by rw [e1]; simp [hm])
    obtain ⟨c1, c2, st2, lb2, g1, g2, g3, g4, g5⟩ := loop_unit e3 (by omega) hd2 e4 tail (0 * 65536 + (0xd800 + (u - 0x10000) / 0x400)) 2 (0 + d1.length)
    refine ⟨d1 ++ c1, c2, st2, lb2, by rw [e1, g1, List.append_assoc], by simp [e2], g3, g4, fun orig start f count => ?_⟩
    rw [utf7Go.eq_def]
    simp only [ne_eq, hl.active, not_false_iff, if_true]
    rw [e5, if_pos (by omega), if_neg (by rw [g1]; simp [g2]), g5, if_neg (by omega)]
    simp only [if_neg g3.active]
    have hw1 : (((0 * 65536 + (55296 + (u - 65536) / 1024)) * 65536 + (56320 + (u - 65536) % 1024)) >>> 16) = 55296 + (u - 65536) / 1024 := by
      rw [Nat.shiftRight_eq_div_pow]; omega
    have hw2 : (((0 * 65536 + (55296 + (u - 65536) / 1024)) * 65536 + (56320 + (u - 65536) % 1024)) &&& 0xffff) = 56320 + (u - 65536) % 1024 := by
      have := and_mod ((0 * 65536 + (55296 + (u - 65536) / 1024)) * 65536 + (56320 + (u - 65536) % 1024)) 16
      rw [show (0xffff : Nat) = 2 ^ 16 - 1 from rfl, this]; omega
    rw [hw1, hw2, if_pos trivial, if_neg (by omega), if_neg (by omega), Nat.shiftLeft_eq]
    rw [show 65536 + (55296 + (u - 65536) / 1024 - 55296) * 2 ^ 10 + (56320 + (u - 65536) % 1024 - 56320) = u by omega, Nat.zero_add,
      List.length_append]

end Verif.Iconv
