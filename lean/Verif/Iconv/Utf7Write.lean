import Verif.Iconv.Utf7Read

namespace Verif.Iconv
open Verif Spec

/-- What the state of the encoder says about the bits not written yet. -/
inductive Pend : Nat → List Bool → Prop
  | none : Pend 1 []
  | two (p : Nat) : p < 4 → Pend (16 * p + 2) (bits 2 p)
  | four (p : Nat) : p < 16 → Pend (4 * p + 3) (bits 4 p)

theorem base64Char_digit {d : Nat} (h : d < 64) : base64Char d = some (digit d) :=
  (by decide +kernel : ∀ d : Fin 64, base64Char d.1 = some (digit d.1)) ⟨d, h⟩

theorem and255 (n : Nat) : n &&& 0xff = n % 256 := and_mod n 8
theorem and63 (n : Nat) : n &&& 63 = n % 64 := and_mod n 6

/-- One round of the loop. -/
def round (wc state k : Nat) : Nat × Nat × Nat :=
  if state &&& 3 = 0 then (dataOf state >>> 2, 1, k)
  else
    let i := (wc >>> (8 * (k - 1))) &&& 0xff
    if state &&& 3 = 1 then (i >>> 2, ((i &&& 3) <<< 4) ||| 2, k - 1)
    else if state &&& 3 = 2 then (dataOf state ||| (i >>> 4), ((i &&& 15) <<< 2) ||| 3, k - 1)
    else (dataOf state ||| (i >>> 6), (i &&& 63) <<< 2, k - 1)

theorem write_eq (wc f state k : Nat) {d st' k' : Nat} (h : round wc state k = (d, st', k')) (hd : d < 64) :
    baseWrite wc (f + 1) state k =
      if st' &&& 3 ≠ 0 ∧ k' = 0 then some ([digit d], st')
      else match baseWrite wc f st' k' with
        | none => none
        | some (bs, st) => some (digit d :: bs, st) := by
  rw [baseWrite.eq_2]
  show (match base64Char (round wc state k).1 with
    | none => none
    | some b =>
      if (round wc state k).2.1 &&& 3 ≠ 0 ∧ (round wc state k).2.2 = 0 then some ([b], (round wc state k).2.1)
      else match baseWrite wc f (round wc state k).2.1 (round wc state k).2.2 with
        | none => none
        | some (bs, st) => some (b :: bs, st)) = _
  rw [h]
  simp only [base64Char_digit hd]

theorem round0 (wc : Nat) {x : Nat} (hx : x < 64) (k : Nat) : round wc (4 * x) k = (x, 1, k) := by
  unfold round
  rw [if_pos (by rw [and3]; omega), dataOf_eq (by omega), Nat.shiftRight_eq_div_pow]
  congr 1; omega

/-- The byte to be written. -/
def nth (wc k : Nat) : Nat := wc / 2 ^ (8 * k) % 256

theorem nth_lt (wc k : Nat) : nth wc k < 256 := Nat.mod_lt _ (by decide)

theorem round1 (wc k : Nat) : round wc 1 (k + 1) = (nth wc k / 4, 16 * (nth wc k % 4) + 2, k) := by
  unfold round
  rw [if_neg (by decide)]
  simp only [Nat.add_sub_cancel, and255, Nat.shiftRight_eq_div_pow wc, and3, Nat.shiftRight_eq_div_pow]
  rw [if_pos trivial]
  show (nth wc k / 2 ^ 2, (nth wc k % 4) <<< 4 ||| 2, k) = _
  rw [Nat.shiftLeft_eq, chain (k := 4) (nth wc k % 4) (by omega) rfl, Nat.mul_comm]

theorem round2 (wc k : Nat) {p : Nat} (hp : p < 4) : round wc (16 * p + 2) (k + 1) = (16 * p + nth wc k / 16, 4 * (nth wc k % 16) + 3, k) := by
  have hn := nth_lt wc k
  unfold round
  rw [if_neg (by rw [and3]; omega)]
  simp only [Nat.add_sub_cancel, and255, Nat.shiftRight_eq_div_pow wc, and3, and15, Nat.shiftRight_eq_div_pow]
  rw [if_neg (by omega), if_pos (by omega), dataOf_eq (by omega)]
  show ((16 * p + 2) / 4 * 4 ||| nth wc k / 2 ^ 4, (nth wc k % 16) <<< 2 ||| 3, k) = _
  rw [Nat.shiftLeft_eq, chain (k := 2) (nth wc k % 16) (by omega) rfl, chain (k := 4) p (by omega) (by omega)]
  congr 1
  · omega
  · congr 1; omega

theorem round3 (wc k : Nat) {p : Nat} (hp : p < 16) : round wc (4 * p + 3) (k + 1) = (4 * p + nth wc k / 64, 4 * (nth wc k % 64), k) := by
  have hn := nth_lt wc k
  unfold round
  rw [if_neg (by rw [and3]; omega)]
  simp only [Nat.add_sub_cancel, and255, Nat.shiftRight_eq_div_pow wc, and3, and15, and63, Nat.shiftRight_eq_div_pow]
  rw [if_neg (by omega), if_neg (by omega), dataOf_eq (by omega)]
  show ((4 * p + 3) / 4 * 4 ||| nth wc k / 2 ^ 6, (nth wc k % 64) <<< 2, k) = _
  rw [Nat.shiftLeft_eq, chain (k := 2) p (by omega) (by omega)]
  congr 1
  · omega
  · congr 1; omega

/-- A unit is written: the digits stand for the pending bits and the unit, but for what is pending then. -/
theorem write_unit {st : Nat} {pb : List Bool} (hp : Pend st pb) (wc k : Nat) {u : Nat} (hu : u = nth wc (k + 1) * 256 + nth wc k) :
    ∃ (ds : List Nat) (st' : Nat) (pb' : List Bool), (∀ d ∈ ds, d < 64) ∧ ds ≠ [] ∧ Pend st' pb' ∧
      pb ++ bits 16 u = ds.flatMap (bits 6) ++ pb' ∧ (ds.length = if st &&& 3 ≥ 2 then 3 else 2) ∧ ds.length ≤ 3 ∧
      (st' &&& 3 ≥ 3 ↔ st = 1) ∧ (st' = 1 ↔ st &&& 3 = 2) ∧
      ∀ f, baseWrite wc (f + ds.length) st (k + 2) =
        if k = 0 then some (ds.map digit, st')
        else match baseWrite wc f st' k with
          | none => none
          | some (bs, se) => some (ds.map digit ++ bs, se) := by
  have h0 := nth_lt wc k
  have h1 := nth_lt wc (k + 1)
  generalize hi : nth wc (k + 1) = i at *
  generalize hj : nth wc k = j at *
  cases hp with
  | none =>
    refine ⟨[i / 4, 16 * (i % 4) + j / 16], 4 * (j % 16) + 3, bits 4 (j % 16), by simp; omega, by simp, .four _ (by omega), ?_, by simp [and3], by simp,
      ⟨fun _ => rfl, fun _ => by rw [and3]; omega⟩, ⟨fun h => by omega, fun h => by simp [and3] at h⟩, ?_⟩
    · simp only [List.nil_append, List.flatMap_cons, List.flatMap_nil, List.append_nil]
      rw [← bits_split 6 6 (i / 4) (i * 16 + j / 16) (16 * (i % 4) + j / 16) (by omega) (by omega),
        ← bits_split 12 4 (i * 16 + j / 16) u (j % 16) (by omega) (by omega)]
    · intro f
      show baseWrite wc (f + 1 + 1) 1 (k + 1 + 1) = _
      rw [write_eq _ _ _ _ (round1 wc (k + 1)) (by rw [hi]; omega), if_neg (by omega), hi, write_eq _ _ _ _ (round2 wc k (by omega)) (by rw [hj]; omega), hj]
      by_cases hk : k = 0
      · rw [if_pos ⟨by rw [and3]; omega, hk⟩, if_pos hk]; rfl
      · rw [if_neg (by omega), if_neg hk]
        cases baseWrite wc f (4 * (j % 16) + 3) k <;> rfl
  | two p hp =>
    refine ⟨[16 * p + i / 16, 4 * (i % 16) + j / 64, j % 64], 1, [], by simp; omega, by simp, .none, ?_, by rw [if_pos (by rw [and3]; omega)]; rfl, by simp,
      by simp only [and3]; omega, ⟨fun _ => by rw [and3]; omega, fun _ => rfl⟩, ?_⟩
    · simp only [List.append_nil, List.flatMap_cons, List.flatMap_nil]
      rw [← bits_split 2 16 p (p * 65536 + u) u (by omega) (by omega), ← List.append_assoc,
        ← bits_split 6 6 (16 * p + i / 16) (p * 1024 + u / 64) (4 * (i % 16) + j / 64) (by omega) (by omega),
        ← bits_split 12 6 (p * 1024 + u / 64) (p * 65536 + u) (j % 64) (by omega) (by omega)]
    · intro f
      show baseWrite wc (f + 1 + 1 + 1) (16 * p + 2) (k + 1 + 1) = _
      rw [write_eq _ _ _ _ (round2 wc (k + 1) hp) (by rw [hi]; omega), if_neg (by omega), hi,
        write_eq _ _ _ _ (round3 wc k (by omega)) (by rw [hj]; omega), if_neg (by rw [and3]; omega), hj,
        write_eq _ _ _ _ (round0 wc (by omega) k) (by omega)]
      by_cases hk : k = 0
      · rw [if_pos ⟨by decide, hk⟩, if_pos hk]; rfl
      · rw [if_neg (by omega), if_neg hk]
        cases baseWrite wc f 1 k <;> rfl
  | four p hp =>
    refine ⟨[4 * p + i / 64, i % 64, j / 4], 16 * (j % 4) + 2, bits 2 (j % 4), by simp; omega, by simp, .two _ (by omega), ?_,
      by rw [if_pos (by rw [and3]; omega)]; rfl, by simp, by simp only [and3]; omega, by simp only [and3]; omega, ?_⟩
    · simp only [List.append_nil, List.flatMap_cons, List.flatMap_nil]
      rw [← bits_split 4 16 p (p * 65536 + u) u (by omega) (by omega), ← List.append_assoc,
        ← bits_split 6 6 (4 * p + i / 64) (p * 256 + i) (i % 64) (by omega) (by omega),
        ← bits_split 12 6 (p * 256 + i) (p * 16384 + u / 4) (j / 4) (by omega) (by omega),
        ← bits_split 18 2 (p * 16384 + u / 4) (p * 65536 + u) (j % 4) (by omega) (by omega)]
    · intro f
      show baseWrite wc (f + 1 + 1 + 1) (4 * p + 3) (k + 1 + 1) = _
      rw [write_eq _ _ _ _ (round3 wc (k + 1) hp) (by rw [hi]; omega), if_neg (by omega), hi,
        write_eq _ _ _ _ (round0 wc (by omega) (k + 1)) (by omega), if_neg (by omega), write_eq _ _ _ _ (round1 wc k) (by rw [hj]; omega), hj]
      by_cases hk : k = 0
      · rw [if_pos ⟨by rw [and3]; omega, hk⟩, if_pos hk]; rfl
      · rw [if_neg (by omega), if_neg hk]
        cases baseWrite wc f (16 * (j % 4) + 2) k <;> rfl

theorem Pend.active {st : Nat} {pb : List Bool} (h : Pend st pb) : st &&& 3 ≠ 0 := by
  rw [and3]
  cases h <;> omega

theorem Pend.cases3 {st : Nat} {pb : List Bool} (h : Pend st pb) : st = 1 ∨ st &&& 3 = 2 ∨ st &&& 3 = 3 := by
  simp only [and3]
  cases h <;> omega

/-- A character in base64. -/
theorem write_char {st : Nat} {pb : List Bool} (hp : Pend st pb) {c : Nat} (hc1 : c < 0x110000) (hdir : inTab directTab c = false) :
    ∃ (ds : List Nat) (st' : Nat) (pb' : List Bool), (∀ d ∈ ds, d < 64) ∧ ds ≠ [] ∧ Pend st' pb' ∧
      pb ++ (utf16 c).flatMap (bits 16) = ds.flatMap (bits 6) ++ pb' ∧
      ∀ orig pre n, utf7Active orig pre st c n =
        if n < (pre ++ ds.map digit).length then (.tooSmall, orig) else (.bytes (pre ++ ds.map digit), st') := by

  by_cases hlt : c < 0x10000
  · obtain ⟨ds, st', pb', e1, e2, e3, e4, e5, e6, e7, e8, e9⟩ := write_unit hp c 0 (u := c) (by simp only [nth]; omega)
    refine ⟨ds, st', pb', e1, e2, e3, by simpa [utf16, hlt] using e4, ?_⟩
    intro orig pre n
    have h9 : baseWrite c 8 st 2 = some (ds.map digit, st') := by
      have := e9 (8 - ds.length)
      rw [show 8 - ds.length + ds.length = 8 by omega] at this
      simpa using this
    unfold utf7Active
    simp only [hdir, Bool.false_eq_true, if_false, if_pos hlt, h9, List.length_append, List.length_map, e5]
  · have hlt2 : c < 0x110000 := hc1
    have w1 : 0xd800 + ((c - 0x10000) >>> 10) = 0xd800 + (c - 0x10000) / 0x400 := by rw [Nat.shiftRight_eq_div_pow]
    have w2 : 0xdc00 + ((c - 0x10000) &&& 0x3ff) = 0xdc00 + (c - 0x10000) % 0x400 := by
      rw [show (0x3ff : Nat) = 2 ^ 10 - 1 from rfl, and_mod]
    have w3 : ((0xd800 + (c - 0x10000) / 0x400) <<< 16 ||| (0xdc00 + (c - 0x10000) % 0x400)) =
        (0xd800 + (c - 0x10000) / 0x400) * 65536 + (0xdc00 + (c - 0x10000) % 0x400) := by
      rw [Nat.shiftLeft_eq, chain (k := 16) (0xd800 + (c - 0x10000) / 0x400) (by omega) rfl]
    generalize hw : (0xd800 + (c - 0x10000) / 0x400) * 65536 + (0xdc00 + (c - 0x10000) % 0x400) = wc at w3
    obtain ⟨ds, st', pb', e1, e2, e3, e4, e5, e6, e7, e8, e9⟩ := write_unit hp wc 2 (u := 0xd800 + (c - 0x10000) / 0x400)
      (by
        show _ = wc / 16777216 % 256 * 256 + wc / 65536 % 256
        clear w1 w2 w3
        have hy : (c - 0x10000) % 0x400 < 0x400 := by omega
        have hx : (c - 0x10000) / 0x400 < 0x400 := by omega
        generalize (c - 0x10000) % 0x400 = y at *
        generalize (c - 0x10000) / 0x400 = x at *
        omega)
    obtain ⟨fs, st2, pb2, g1, g2, g3, g4, g5, g6, g7, g8, g9⟩ := write_unit e3 wc 0 (u := 0xdc00 + (c - 0x10000) % 0x400)
      (by
        show _ = wc / 256 % 256 * 256 + wc / 1 % 256
        clear w1 w2 w3
        omega)
    refine ⟨ds ++ fs, st2, pb2, ?_, by simp [e2], g3, ?_, ?_⟩
    · intro d hd
      rcases List.mem_append.1 hd with h | h
      · exact e1 d h
      · exact g1 d h
    · simp only [utf16, if_neg hlt, List.flatMap_cons, List.flatMap_nil, List.append_nil, List.flatMap_append]
      rw [← List.append_assoc, e4, List.append_assoc, g4, List.append_assoc]
    · intro orig pre n
      have h9 : baseWrite wc 8 st 4 = some ((ds ++ fs).map digit, st2) := by
        have h1 := e9 (8 - ds.length)
        rw [show 8 - ds.length + ds.length = 8 by omega] at h1
        have h2 := g9 (8 - ds.length - fs.length)
        rw [show 8 - ds.length - fs.length + fs.length = 8 - ds.length by omega] at h2
        rw [h1, if_neg (by decide)]
        simp only [h2, if_true, List.map_append]
      have hcount : (ds ++ fs).length = if st &&& 3 ≥ 3 then 6 else 5 := by
        rw [List.length_append, e5, g5]
        rcases hp.cases3 with h | h | h
        · have := e7.2 h
          subst h
          rw [if_neg (by decide), if_pos (by omega), if_neg (by decide)]
        · have := e8.2 h
          subst this
          rw [if_pos (by omega), if_neg (by decide), if_neg (by omega)]
        · have h7 : ¬ st' &&& 3 ≥ 3 := fun hh => by have := e7.1 hh; subst this; simp [and3] at h
          have h8 : st' ≠ 1 := fun hh => by have := e8.1 hh; omega
          have := e3.cases3
          rw [if_pos (by omega), if_pos (by omega), if_pos (by omega)]
      unfold utf7Active
      simp only [hdir, Bool.false_eq_true, if_false, if_neg hlt, if_pos hlt2, w1, w2, w3, h9]
      rw [← hcount]
      simp only [List.length_append, List.length_map]

/-- The pending bits. -/
theorem write_pending {st : Nat} {pb : List Bool} (hp : Pend st pb) :
    ∃ (ds : List Nat) (z : Nat), (∀ d ∈ ds, d < 64) ∧ z < 6 ∧ basePending st = some (ds.map digit) ∧ ds.flatMap (bits 6) = pb ++ List.replicate z false ∧
      ds.length = if st &&& 3 ≥ 2 then 1 else 0 := by
  unfold basePending
  cases hp with
  | none => exact ⟨[], 0, by simp, by omega, by simp [and3], rfl, by simp [and3]⟩
  | two p hp =>
    refine ⟨[16 * p], 4, by simp; omega, by omega, ?_, ?_, by rw [if_pos (by rw [and3]; omega)]; rfl⟩
    · rw [if_pos (by rw [and3]; omega), dataOf_eq (by omega), show (16 * p + 2) / 4 * 4 = 16 * p by omega, base64Char_digit (by omega)]; rfl
    · simp only [List.flatMap_cons, List.flatMap_nil, List.append_nil]
      exact bits_split 2 4 p (16 * p) 0 (by omega) (by omega)
  | four p hp =>
    refine ⟨[4 * p], 2, by simp; omega, by omega, ?_, ?_, by rw [if_pos (by rw [and3]; omega)]; rfl⟩
    · rw [if_pos (by rw [and3]; omega), dataOf_eq (by omega), show (4 * p + 3) / 4 * 4 = 4 * p by omega, base64Char_digit (by omega)]; rfl
    · simp only [List.flatMap_cons, List.flatMap_nil, List.append_nil]
      exact bits_split 4 2 p (4 * p) 0 (by omega) (by omega)

/-- What is written from a state with pending bits on, with the end. -/
def Cont (pb : List Bool) (cs : List Nat) (text : Str) : Prop :=
  ∃ (us cs' ds : List Nat) (tail bs : Str) (z : Nat), cs = us ++ cs' ∧ text = ds.map digit ++ tail ∧ (∀ d ∈ ds, d < 64) ∧ z < 6 ∧
    ds.flatMap (bits 6) = pb ++ (us.flatMap utf16).flatMap (bits 16) ++ List.replicate z false ∧ Utf7 cs' bs ∧ (∀ u ∈ us, Spec.Scalar u) ∧
    (tail = 45 :: bs ∨ (tail = bs ∧ ∀ b, bs.head? = some b → b ∉ alphabet ∧ b ≠ 45))

theorem Cont.text {c : Nat} (hc : Spec.Scalar c) {ds : List Nat} (hd : ∀ d ∈ ds, d < 64) {pb : List Bool}
    (he : (utf16 c).flatMap (bits 16) = ds.flatMap (bits 6) ++ pb) {cs : List Nat} {text : Str} (h : Cont pb cs text) :
    Utf7 (c :: cs) (43 :: ds.map digit ++ text) := by
  obtain ⟨us, cs', fs, tail, bs, z, rfl, rfl, h3, h4, h5, h6, hus, h7⟩ := h
  have hall : ∀ u ∈ c :: us, Spec.Scalar u := by
    intro u hu
    rcases List.mem_cons.1 hu with rfl | hu
    · exact hc
    · exact hus u hu
  have hbase : Base64 ((ds ++ fs).map digit) (((c :: us).flatMap utf16).flatMap (bits 16)) := by
    refine ⟨ds ++ fs, ?_, rfl, z, h4, ?_⟩
    · intro d hm
      rcases List.mem_append.1 hm with h | h
      · exact hd d h
      · exact h3 d h
    · rw [List.flatMap_append, h5, List.flatMap_cons, List.flatMap_append, he]
      simp
  rcases h7 with rfl | ⟨rfl, h8⟩
  · have := Utf7.closed (by simp) hall hbase h6
    simpa using this
  · have := Utf7.broken (by simp) hall hbase h6 h8
    simpa using this

theorem Cont.more {c : Nat} (hc : Spec.Scalar c) {ds : List Nat} (hd : ∀ d ∈ ds, d < 64) {pb pb' : List Bool}
    (he : pb ++ (utf16 c).flatMap (bits 16) = ds.flatMap (bits 6) ++ pb') {cs : List Nat} {text : Str} (h : Cont pb' cs text) :
    Cont pb (c :: cs) (ds.map digit ++ text) := by
  obtain ⟨us, cs', fs, tail, bs, z, rfl, rfl, h3, h4, h5, h6, hus, h7⟩ := h
  refine ⟨c :: us, cs', ds ++ fs, tail, bs, z, rfl, by simp, ?_, h4, ?_, h6, ?_, h7⟩
  · intro d hm
    rcases List.mem_append.1 hm with h | h
    · exact hd d h
    · exact h3 d h
  · rw [List.flatMap_append, h5, List.flatMap_cons, List.flatMap_append]
    rw [← List.append_assoc, ← List.append_assoc, ← he]
    simp
  · intro u hu
    rcases List.mem_cons.1 hu with rfl | hu
    · exact hc
    · exact hus u hu

/-- Characters standing for themselves. -/
theorem direct_byte {c : Nat} (h : inTab directTab c = true) : (UInt8.ofNat c).toNat = c ∧ UInt8.ofNat c ∈ direct := by
  have hlt : c < 128 := by
    unfold inTab at h
    simp only [Bool.and_eq_true, decide_eq_true_eq] at h
    exact h.1
  have e := ofNat_toNat (n := c) (by omega)
  exact ⟨e, (direct_iff _).1 (by rw [e]; exact h)⟩

theorem utf7_write (cs : List Nat) (hcs : ∀ c ∈ cs, Spec.Scalar c) :
    (∃ w se r, Writes utf7 0 cs w se ∧ utf7Reset se = some r ∧ Utf7 cs (w ++ r)) ∧
    (∀ st pb, Pend st pb → ∃ w se r, Writes utf7 st cs w se ∧ utf7Reset se = some r ∧ Cont pb cs (w ++ r)) := by
  induction cs with
  | nil =>
    refine ⟨⟨[], 0, [], .nil _, rfl, .nil⟩, ?_⟩
    intro st pb hp
    obtain ⟨ds, z, h1, h2, h3, h4, _⟩ := write_pending hp
    refine ⟨[], st, ds.map digit ++ [45], .nil _, ?_, ?_⟩
    · rw [utf7Reset, if_pos hp.active, h3]; rfl
    · exact ⟨[], [], ds, [45], [], z, rfl, rfl, h1, h2, by simpa using h4, .nil, by simp, .inl rfl⟩
  | cons c cs ih =>
    obtain ⟨ihA, ihB⟩ := ih (fun d hd => hcs d (by simp [hd]))
    have hc := hcs c (by simp)
    constructor
    · cases hdir : inTab directTab c with
      | true =>
        obtain ⟨w, se, r, a1, a2, a3⟩ := ihA
        obtain ⟨d1, d2⟩ := direct_byte hdir
        refine ⟨[UInt8.ofNat c] ++ w, se, r, .cons (by simp) ?_ a1, a2, ?_⟩
        · intro n hn
          show utf7Wctomb 0 c n = _
          rw [utf7Wctomb, if_neg (by decide), hdir, if_pos rfl, if_neg (by simp; omega)]
        · have := Utf7.plain (b := UInt8.ofNat c) (by simp [d2]) a3
          rw [d1] at this
          exact this
      | false =>
        by_cases h43 : c = 43
        · obtain ⟨w, se, r, a1, a2, a3⟩ := ihA
          refine ⟨[43, 45] ++ w, se, r, .cons (by simp) ?_ a1, a2, ?_⟩
          · intro n hn
            show utf7Wctomb 0 c n = _
            rw [utf7Wctomb, if_neg (by decide), hdir, if_neg (by simp), if_pos h43]
            rfl
          · rw [h43]; exact .plus a3
        · obtain ⟨ds, st', pb', e1, e2, e3, e4, e5⟩ := write_char .none hc.1 hdir
          obtain ⟨w, se, r, a1, a2, a3⟩ := ihB st' pb' e3
          refine ⟨([43] ++ ds.map digit) ++ w, se, r, .cons (by simp) ?_ a1, a2, ?_⟩
          · intro n hn
            show utf7Wctomb 0 c n = _
            rw [utf7Wctomb, if_neg (by decide), hdir, if_neg (by simp), if_neg h43, e5]
          · have := a3.text hc e1 (by simpa using e4)
            simpa using this
    · intro st pb hp
      cases hdir : inTab directTab c with
      | true =>
        obtain ⟨w, se, r, a1, a2, a3⟩ := ihA
        obtain ⟨d1, d2⟩ := direct_byte hdir
        obtain ⟨ds, z, h1, h2, h3, h4, h5⟩ := write_pending hp
        refine ⟨(ds.map digit ++ (if inTab xbase64Tab c then [45] else []) ++ [UInt8.ofNat c]) ++ w, se, r, .cons (by simp) ?_ a1, a2, ?_⟩
        · intro n hn
          show utf7Wctomb st c n = _
          rw [utf7Wctomb, if_pos hp.active, utf7Active, if_pos hdir, h3, ← h5]
          have : List.length (([] : Str)) + ds.length + (if inTab xbase64Tab c = true then 1 else 0) + 1 =
              (ds.map digit ++ (if inTab xbase64Tab c = true then [45] else []) ++ [UInt8.ofNat c]).length := by
            split <;> simp
          simp only [this, List.nil_append]
        · have hpl := Utf7.plain (b := UInt8.ofNat c) (by simp [d2]) a3
          rw [d1] at hpl
          cases hx : inTab xbase64Tab c with
          | true => exact ⟨[], c :: cs, ds, 45 :: UInt8.ofNat c :: (w ++ r), _, z, rfl, by simp, h1, h2, by simpa using h4, hpl, by simp, .inl rfl⟩
          | false =>
            refine ⟨[], c :: cs, ds, UInt8.ofNat c :: (w ++ r), _, z, rfl, by simp, h1, h2, by simpa using h4, hpl, by simp, .inr ⟨rfl, ?_⟩⟩
            intro b hb
            simp only [List.head?_cons, Option.some.injEq] at hb
            have := xbase64_iff (UInt8.ofNat c)
            rw [d1, hx] at this
            subst hb
            simp only [Bool.false_eq_true, false_iff, not_or] at this
            exact this
      | false =>
        obtain ⟨ds, st', pb', e1, e2, e3, e4, e5⟩ := write_char hp hc.1 hdir
        obtain ⟨w, se, r, a1, a2, a3⟩ := ihB st' pb' e3
        refine ⟨ds.map digit ++ w, se, r, .cons (by simp [e2]) ?_ a1, a2, ?_⟩
        · intro n hn
          show utf7Wctomb st c n = _
          rw [utf7Wctomb, if_pos hp.active, e5]
          simp
        · have := a3.more hc e1 e4
          simpa using this

end Verif.Iconv
