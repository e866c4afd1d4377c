import Verif.Zlib.GzSpec
import Verif.Zlib.Gzip
import Verif.Zlib.PropsCrc
import Verif.Zlib.StreamTop

/-! Lemmas about the head and the end of a gzip file. -/

namespace Verif.Zlib

theorem needBits_bytes : ∀ (k fuel hold b : Nat) (input : List Byte), k ≤ input.length → k ≤ fuel →
    needBits (b + 8 * k) fuel ⟨hold, b, input⟩ =
      some ⟨hold + 2 ^ b * streamOf (input.take k), b + 8 * k, input.drop k⟩
  | 0, fuel, hold, b, input, _, _ => by
    cases fuel <;> simp [needBits, streamOf]
  | k + 1, 0, hold, b, input, _, h => by omega
  | k + 1, fuel + 1, hold, b, [], h, _ => by simp at h
  | k + 1, fuel + 1, hold, b, x :: xs, h, h' => by
    have hlt : ¬ b + 8 * (k + 1) ≤ b := by omega
    simp only [needBits, if_neg hlt, pullByte]
    have e : b + 8 * (k + 1) = b + 8 + 8 * k := by omega
    rw [e, needBits_bytes k fuel _ (b + 8) xs (by simpa using h) (by omega)]
    simp only [List.take_succ_cons, List.drop_succ_cons, streamOf, Option.some.injEq, Bits.mk.injEq,
      and_true]
    rw [Nat.pow_add]
    ring

theorem takeWord_some {k : Nat} {input : List Byte} (h : k ≤ input.length) :
    takeWord k input = some (streamOf (input.take k), input.drop k) := by
  have := needBits_bytes k input.length 0 0 input h h
  rw [Nat.zero_add] at this
  unfold takeWord need
  rw [this]
  simp

theorem takeWord_none {k : Nat} {input : List Byte} (h : input.length < k) :
    takeWord k input = none := by
  have := need_none (n := 8 * k) (b := ⟨0, 0, input⟩) (by simp) (by simp [Bits.total]; omega)
  unfold takeWord
  rw [this]

theorem hbuf_eq (k w : Nat) : hbuf k w = bytesOf k w := by
  unfold hbuf bytesOf
  apply List.map_congr_left
  intro i _
  rw [Nat.shiftRight_eq_div_pow]

theorem bytesOf_length (k w : Nat) : (bytesOf k w).length = k := by simp [bytesOf]

theorem streamOf_bytesOf : ∀ (k w : Nat), streamOf (bytesOf k w) = w % 2 ^ (8 * k)
  | 0, w => by simp [bytesOf, streamOf, Nat.mod_one]
  | k + 1, w => by
    rw [bytesOf_succ, streamOf, streamOf_bytesOf k, UInt8.toNat_ofNat',
      show 8 * (k + 1) = 8 + 8 * k by omega, Nat.pow_add, Nat.mod_mul]

/-- A word that is read and the bytes of a number. -/
theorem word_iff {k w : Nat} (hw : w < 2 ^ (8 * k)) {input rest : List Byte} :
    takeWord k input = some (w, rest) ↔ input = bytesOf k w ++ rest := by
  constructor
  · intro h
    by_cases hl : k ≤ input.length
    · rw [takeWord_some hl] at h
      simp only [Option.some.injEq, Prod.mk.injEq] at h
      obtain ⟨h1, h2⟩ := h
      have e : bytesOf k w = input.take k := by
        rw [← h1]
        have := bytesOf_stream k (input.take k) (by simp; omega)
        rw [this, List.take_take, Nat.min_self]
      rw [e, ← h2, List.take_append_drop]
    · rw [takeWord_none (by omega)] at h
      cases h
  · rintro rfl
    have hl := bytesOf_length k w
    rw [takeWord_some (by simp [hl])]
    rw [List.take_append_of_le_length (by omega), List.take_of_length_le (by omega),
      streamOf_bytesOf, Nat.mod_eq_of_lt hw, List.drop_append_of_le_length (by omega),
      List.drop_of_length_le (by omega)]
    rfl

theorem streamOf_lt : ∀ s : List Byte, streamOf s < 2 ^ (8 * s.length)
  | [] => by simp [streamOf]
  | x :: xs => by
    have := streamOf_lt xs
    have hx := x.toNat_lt
    rw [streamOf, List.length_cons, show 8 * (xs.length + 1) = 8 + 8 * xs.length by omega,
      Nat.pow_add]
    omega

theorem takeWord_lt {k w : Nat} {input rest : List Byte} (h : takeWord k input = some (w, rest)) :
    w < 2 ^ (8 * k) := by
  by_cases hl : k ≤ input.length
  · rw [takeWord_some hl] at h
    simp only [Option.some.injEq, Prod.mk.injEq] at h
    rw [← h.1]
    have := streamOf_lt (input.take k)
    rwa [List.length_take, Nat.min_eq_left hl] at this
  · rw [takeWord_none (by omega)] at h
    cases h

theorem untilZero_iff : ∀ {input s rest : List Byte},
    untilZero input = some (s, rest) ↔ input = s ++ rest ∧ ZeroEnded s
  | [], s, rest => by
    simp only [untilZero]
    constructor
    · intro h; cases h
    · rintro ⟨h, t, _, rfl⟩
      simp at h
  | x :: xs, s, rest => by
    simp only [untilZero]
    by_cases hx : x = 0
    · subst hx
      rw [if_pos rfl]
      simp only [Option.some.injEq, Prod.mk.injEq]
      constructor
      · rintro ⟨rfl, rfl⟩
        exact ⟨rfl, [], by simp, rfl⟩
      · rintro ⟨h, t, ht, rfl⟩
        cases t with
        | nil => simpa using h
        | cons y ys =>
          simp only [List.cons_append, List.cons.injEq] at h
          exact absurd (by rw [← h.1]; simp) ht
    · rw [if_neg hx, Option.map_eq_some_iff]
      constructor
      · rintro ⟨⟨s', r'⟩, h1, h2⟩
        obtain ⟨e1, t, ht, e2⟩ := untilZero_iff.mp h1
        simp only [Prod.mk.injEq] at h2
        obtain ⟨rfl, rfl⟩ := h2
        refine ⟨by rw [e1]; rfl, x :: t, ?_, by rw [e2]; rfl⟩
        intro hm
        rcases List.mem_cons.mp hm with hm | hm
        · exact hx hm.symm
        · exact ht hm
      · rintro ⟨h, t, ht, rfl⟩
        cases t with
        | nil =>
          simp only [List.nil_append, List.singleton_append, List.cons.injEq] at h
          exact absurd h.1 hx
        | cons y ys =>
          simp only [List.cons_append, List.cons.injEq] at h
          obtain ⟨rfl, h⟩ := h
          refine ⟨(ys ++ [0], rest), untilZero_iff.mpr ⟨h, ys, ?_, rfl⟩, rfl⟩
          intro hm
          exact ht (List.mem_cons_of_mem _ hm)

/-- The CRC so far, if it is wanted. -/
def Sum (flags : Nat) (done : List Byte) (check : U4) : Prop :=
  flags &&& 0x0200 ≠ 0 → IsCrc done check

theorem sum_crcIf (p : Place) {flags : Nat} {done : List Byte} {check : U4} (h : Sum flags done check)
    (s : List Byte) : Sum flags (done ++ s) (crcIf p flags check s) := by
  intro hf
  unfold crcIf
  rw [if_pos hf]
  exact C188_parts p.machine _ done s check (h hf)

/-- A field that is there if a bit of the flags is set. -/
def FieldN (flags mask : Nat) (P : List Byte → Prop) (s : List Byte) : Prop :=
  if flags &&& mask ≠ 0 then P s else s = []

def AtHcrc (flags : Nat) (done input : List Byte) (b : Bits) : Prop :=
  ∃ crc rest, input = crc ++ rest ∧ b = ⟨0, 0, rest⟩ ∧
    FieldN flags 0x0200 (fun s => ∃ c : BitVec 32, IsCrc done c ∧ s = bytesOf 2 c.toNat) crc

def AtComment (flags : Nat) (done input : List Byte) (b : Bits) : Prop :=
  ∃ comment rest, input = comment ++ rest ∧ FieldN flags 0x1000 ZeroEnded comment ∧
    AtHcrc flags (done ++ comment) rest b

def AtName (flags : Nat) (done input : List Byte) (b : Bits) : Prop :=
  ∃ name rest, input = name ++ rest ∧ FieldN flags 0x0800 ZeroEnded name ∧
    AtComment flags (done ++ name) rest b

def AtExtra (flags : Nat) (done input : List Byte) (b : Bits) : Prop :=
  ∃ extra rest, input = extra ++ rest ∧
    FieldN flags 0x0400
      (fun s => ∃ data, data.length < 65536 ∧ s = bytesOf 2 data.length ++ data) extra ∧
    AtName flags (done ++ extra) rest b

def AtTime (flags : Nat) (done input : List Byte) (b : Bits) : Prop :=
  ∃ six rest, input = six ++ rest ∧ six.length = 6 ∧ AtExtra flags (done ++ six) rest b

theorem bytes_mod (k w : Nat) : bytesOf k (w % 2 ^ (8 * k)) = bytesOf k w := by
  induction k generalizing w with
  | zero => rfl
  | succ k ih =>
    rw [bytesOf_succ, bytesOf_succ]
    congr 1
    · apply UInt8.toNat_inj.mp
      rw [UInt8.toNat_ofNat', UInt8.toNat_ofNat', show 8 * (k + 1) = 8 + 8 * k by omega, Nat.pow_add,
        Nat.mod_mul_right_mod]
    · rw [← ih (w / 256), show 8 * (k + 1) = 8 + 8 * k by omega, Nat.pow_add,
        Nat.mod_mul_right_div_self]

theorem gzHcrc_iff {flags : Nat} {done : List Byte} {check : U4} (h : Sum flags done check)
    {input : List Byte} {f : Nat} {b : Bits} :
    gzHcrc flags check input = .ok f b ↔ f = flags ∧ AtHcrc flags done input b := by
  unfold gzHcrc AtHcrc FieldN
  by_cases hf : flags &&& 0x0200 ≠ 0
  · simp only [if_pos hf]
    have hmask : check.toNat &&& 0xffff = check.toNat % 2 ^ (8 * 2) :=
      Nat.and_two_pow_sub_one_eq_mod check.toNat 16
    rw [hmask]
    constructor
    · intro hh
      cases hw : takeWord 2 input with
      | none => rw [hw] at hh; cases hh
      | some x =>
        obtain ⟨hold, rest⟩ := x
        rw [hw] at hh
        simp only at hh
        split at hh
        · cases hh
        · rename_i hne
          have hne : hold = check.toNat % 2 ^ (8 * 2) := Decidable.not_not.mp hne
          simp only [Read.ok.injEq] at hh
          obtain ⟨rfl, rfl⟩ := hh
          rw [word_iff (takeWord_lt hw)] at hw
          refine ⟨rfl, _, _, hw, rfl, check, h hf, ?_⟩
          rw [hne, bytes_mod]
    · rintro ⟨rfl, crc, rest, rfl, rfl, c, hc, rfl⟩
      have := C187_unique _ _ _ hc (h hf)
      subst this
      have hw : takeWord 2 (bytesOf 2 c.toNat ++ rest) = some (c.toNat % 2 ^ (8 * 2), rest) := by
        rw [word_iff (Nat.mod_lt _ (by decide)), bytes_mod]
      rw [hw]
      simp
  · simp only [if_neg hf]
    constructor
    · intro hh
      simp only [Read.ok.injEq] at hh
      obtain ⟨rfl, rfl⟩ := hh
      exact ⟨rfl, [], input, rfl, rfl, rfl⟩
    · rintro ⟨rfl, crc, rest, rfl, rfl, rfl⟩
      rfl

theorem gzComment_iff (p : Place) {flags : Nat} {done : List Byte} {check : U4}
    (h : Sum flags done check) {input : List Byte} {f : Nat} {b : Bits} :
    gzComment p flags check input = .ok f b ↔ f = flags ∧ AtComment flags done input b := by
  unfold gzComment AtComment FieldN
  by_cases hf : flags &&& 0x1000 ≠ 0
  · simp only [if_pos hf]
    constructor
    · intro hh
      cases hu : untilZero input with
      | none => rw [hu] at hh; cases hh
      | some x =>
        obtain ⟨s, rest⟩ := x
        rw [hu] at hh
        obtain ⟨e1, e2⟩ := untilZero_iff.mp hu
        obtain ⟨rfl, hh⟩ := (gzHcrc_iff (sum_crcIf p h s)).mp hh
        exact ⟨rfl, s, rest, e1, e2, hh⟩
    · rintro ⟨rfl, s, rest, e1, e2, hh⟩
      rw [untilZero_iff.mpr ⟨e1, e2⟩]
      exact (gzHcrc_iff (sum_crcIf p h s)).mpr ⟨rfl, hh⟩
  · simp only [if_neg hf]
    rw [gzHcrc_iff h]
    constructor
    · rintro ⟨rfl, hh⟩
      exact ⟨rfl, [], input, rfl, rfl, by rwa [List.append_nil]⟩
    · rintro ⟨rfl, s, rest, rfl, rfl, hh⟩
      exact ⟨rfl, by rwa [List.append_nil] at hh⟩

theorem gzName_iff (p : Place) {flags : Nat} {done : List Byte} {check : U4}
    (h : Sum flags done check) {input : List Byte} {f : Nat} {b : Bits} :
    gzName p flags check input = .ok f b ↔ f = flags ∧ AtName flags done input b := by
  unfold gzName AtName FieldN
  by_cases hf : flags &&& 0x0800 ≠ 0
  · simp only [if_pos hf]
    constructor
    · intro hh
      cases hu : untilZero input with
      | none => rw [hu] at hh; cases hh
      | some x =>
        obtain ⟨s, rest⟩ := x
        rw [hu] at hh
        obtain ⟨e1, e2⟩ := untilZero_iff.mp hu
        obtain ⟨rfl, hh⟩ := (gzComment_iff p (sum_crcIf p h s)).mp hh
        exact ⟨rfl, s, rest, e1, e2, hh⟩
    · rintro ⟨rfl, s, rest, e1, e2, hh⟩
      rw [untilZero_iff.mpr ⟨e1, e2⟩]
      exact (gzComment_iff p (sum_crcIf p h s)).mpr ⟨rfl, hh⟩
  · simp only [if_neg hf]
    rw [gzComment_iff p h]
    constructor
    · rintro ⟨rfl, hh⟩
      exact ⟨rfl, [], input, rfl, rfl, by rwa [List.append_nil]⟩
    · rintro ⟨rfl, s, rest, rfl, rfl, hh⟩
      exact ⟨rfl, by rwa [List.append_nil] at hh⟩

theorem gzExtra_iff (p : Place) {flags : Nat} {done : List Byte} {check : U4}
    (h : Sum flags done check) {input : List Byte} {f : Nat} {b : Bits} :
    gzExtra p flags check input = .ok f b ↔ f = flags ∧ AtExtra flags done input b := by
  unfold gzExtra AtExtra FieldN
  by_cases hf : flags &&& 0x0400 ≠ 0
  · simp only [if_pos hf]
    have step : ∀ (hold : Nat) (data rest : List Byte), data.length = hold →
        (gzName p flags (if hold ≠ 0 then crcIf p flags (crcIf p flags check (hbuf 2 hold)) data
          else crcIf p flags check (hbuf 2 hold)) rest = .ok f b ↔
        f = flags ∧ AtName flags (done ++ (bytesOf 2 hold ++ data)) rest b) := by
      intro hold data rest hl
      have h1 := sum_crcIf p h (hbuf 2 hold)
      rw [← List.append_assoc, ← hbuf_eq]
      by_cases h0 : hold ≠ 0
      · rw [if_pos h0]
        exact gzName_iff p (sum_crcIf p h1 data)
      · rw [if_neg h0]
        have : data = [] := List.eq_nil_of_length_eq_zero (by omega)
        rw [this, List.append_nil]
        exact gzName_iff p h1
    constructor
    · intro hh
      cases hw : takeWord 2 input with
      | none => rw [hw] at hh; cases hh
      | some x =>
        obtain ⟨hold, rest⟩ := x
        have hlt := takeWord_lt hw
        rw [hw] at hh
        simp only at hh
        split at hh
        · cases hh
        · rename_i hle
          have hlen : (rest.take hold).length = hold := by simp; omega
          obtain ⟨rfl, hh⟩ := (step hold _ _ hlen).mp hh
          rw [word_iff hlt] at hw
          refine ⟨rfl, bytesOf 2 hold ++ rest.take hold, rest.drop hold, ?_,
            ⟨rest.take hold, by omega, by rw [hlen]⟩, hh⟩
          rw [hw, List.append_assoc, List.take_append_drop]
    · rintro ⟨rfl, extra, rest, rfl, ⟨data, hd, rfl⟩, hh⟩
      have hw : takeWord 2 (bytesOf 2 data.length ++ data ++ rest) =
          some (data.length, data ++ rest) := by
        rw [word_iff (by omega), List.append_assoc]
      rw [hw]
      simp only
      rw [if_neg (by simp), List.take_append_of_le_length (Nat.le_refl _), List.take_length,
        List.drop_append_of_le_length (Nat.le_refl _), List.drop_length, List.nil_append]
      exact (step _ _ _ rfl).mpr ⟨rfl, hh⟩
  · simp only [if_neg hf]
    rw [gzName_iff p h]
    constructor
    · rintro ⟨rfl, hh⟩
      exact ⟨rfl, [], input, rfl, rfl, by rwa [List.append_nil]⟩
    · rintro ⟨rfl, s, rest, rfl, rfl, hh⟩
      exact ⟨rfl, by rwa [List.append_nil] at hh⟩

theorem gzTime_iff (p : Place) {flags : Nat} {done : List Byte} {check : U4}
    (h : Sum flags done check) {input : List Byte} {f : Nat} {b : Bits} :
    gzTime p flags check input = .ok f b ↔ f = flags ∧ AtTime flags done input b := by
  unfold gzTime AtTime
  constructor
  · intro hh
    cases hw : takeWord 4 input with
    | none => rw [hw] at hh; cases hh
    | some x =>
      obtain ⟨hold, rest⟩ := x
      rw [hw] at hh
      simp only at hh
      cases hw2 : takeWord 2 rest with
      | none => rw [hw2] at hh; cases hh
      | some x =>
        obtain ⟨hold2, rest2⟩ := x
        rw [hw2] at hh
        obtain ⟨rfl, hh⟩ := (gzExtra_iff p (sum_crcIf p (sum_crcIf p h _) _)).mp hh
        rw [word_iff (takeWord_lt hw)] at hw
        rw [word_iff (takeWord_lt hw2)] at hw2
        refine ⟨rfl, bytesOf 4 hold ++ bytesOf 2 hold2, rest2, ?_, ?_, ?_⟩
        · rw [hw, hw2, List.append_assoc]
        · simp [bytesOf_length]
        · rwa [hbuf_eq, hbuf_eq, List.append_assoc] at hh
  · rintro ⟨rfl, six, rest, rfl, h6, hh⟩
    have w1 := takeWord_some (k := 4) (input := six ++ rest) (by simp; omega)
    have d1 : (six ++ rest).drop 4 = six.drop 4 ++ rest := by
      rw [List.drop_append_of_le_length (by omega)]
    have t1 : (six ++ rest).take 4 = six.take 4 := by
      rw [List.take_append_of_le_length (by omega)]
    rw [d1, t1] at w1
    have w2 := takeWord_some (k := 2) (input := six.drop 4 ++ rest) (by simp; omega)
    have d2 : (six.drop 4 ++ rest).drop 2 = rest := by
      rw [List.drop_append_of_le_length (by simp; omega), List.drop_of_length_le (by simp; omega)]
      rfl
    have t2 : (six.drop 4 ++ rest).take 2 = six.drop 4 := by
      rw [List.take_append_of_le_length (by simp; omega), List.take_of_length_le (by simp; omega)]
    rw [d2, t2] at w2
    rw [w1]
    simp only [w2]
    refine (gzExtra_iff p (sum_crcIf p (sum_crcIf p h _) _)).mpr ⟨rfl, ?_⟩
    have e1 : hbuf 4 (streamOf (six.take 4)) = six.take 4 := by
      rw [hbuf_eq, bytesOf_stream _ _ (by simp; omega), List.take_take, Nat.min_self]
    have e2 : hbuf 2 (streamOf (six.drop 4)) = six.drop 4 := by
      rw [hbuf_eq, bytesOf_stream _ _ (by simp; omega), List.take_of_length_le (by simp; omega)]
    rwa [e1, e2, List.append_assoc, List.take_append_drop]

end Verif.Zlib
