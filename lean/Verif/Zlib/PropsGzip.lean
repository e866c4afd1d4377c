import Verif.Zlib.GzLemmas
import Verif.Zlib.PropsStream

/-! Properties of the reading of gzip files. -/

namespace Verif.Zlib

/-! ### C204 -/

theorem flag_bits (flg : Byte) :
    ((8 + 256 * flg.toNat) &&& 0xe000 = 0 ↔ flg.toNat < 32) ∧
    ((8 + 256 * flg.toNat) &&& 0x0200 ≠ 0 ↔ flg.toNat.testBit 1 = true) ∧
    ((8 + 256 * flg.toNat) &&& 0x0400 ≠ 0 ↔ flg.toNat.testBit 2 = true) ∧
    ((8 + 256 * flg.toNat) &&& 0x0800 ≠ 0 ↔ flg.toNat.testBit 3 = true) ∧
    ((8 + 256 * flg.toNat) &&& 0x1000 ≠ 0 ↔ flg.toNat.testBit 4 = true) := by
  have all : ∀ n < 256,
      ((8 + 256 * n) &&& 0xe000 = 0 ↔ n < 32) ∧
      ((8 + 256 * n) &&& 0x0200 ≠ 0 ↔ n.testBit 1 = true) ∧
      ((8 + 256 * n) &&& 0x0400 ≠ 0 ↔ n.testBit 2 = true) ∧
      ((8 + 256 * n) &&& 0x0800 ≠ 0 ↔ n.testBit 3 = true) ∧
      ((8 + 256 * n) &&& 0x1000 ≠ 0 ↔ n.testBit 4 = true) := by decide +kernel
  exact all _ flg.toNat_lt

theorem field_iff {flg : Byte} {mask bit : Nat} {P : List Byte → Prop}
    (h : (8 + 256 * flg.toNat) &&& mask ≠ 0 ↔ flg.toNat.testBit bit = true) (s : List Byte) :
    FieldN (8 + 256 * flg.toNat) mask P s ↔ Field flg bit P s := by
  unfold FieldN Field
  by_cases hb : flg.toNat.testBit bit = true
  · rw [if_pos (h.mpr hb), if_pos hb]
  · rw [if_neg (fun x => hb (h.mp x)), if_neg hb]

theorem gzHead_iff (p : Place) {input : List Byte} {f : Nat} {b : Bits} :
    gzHead p input = .ok f b ↔
      ∃ (flg : Byte) (rest : List Byte), input = [0x1f, 0x8b, 8, flg] ++ rest ∧ flg.toNat < 32 ∧
        f = 8 + 256 * flg.toNat ∧
        AtTime (8 + 256 * flg.toNat) [0x1f, 0x8b, 8, flg] rest b := by
  have e1 : bytesOf 2 0x8b1f = [0x1f, 0x8b] := by decide
  have e2 : ∀ flg : Byte, bytesOf 2 (8 + 256 * flg.toNat) = [8, flg] := by
    intro flg
    have hl := flg.toNat_lt
    have := bytesOf_stream 2 [8, flg] (by simp)
    simpa [streamOf] using this
  have sum0 : ∀ flg : Byte, Sum (8 + 256 * flg.toNat) [0x1f, 0x8b, 8, flg]
      (crcIf p (8 + 256 * flg.toNat) (crcBuf p (crc32 p.machine 0#32 none) (hbuf 2 0x8b1f))
        (hbuf 2 (8 + 256 * flg.toNat))) := by
    intro flg
    have h1 : Sum (8 + 256 * flg.toNat) [0x1f, 0x8b]
        (crcBuf p (crc32 p.machine 0#32 none) (hbuf 2 0x8b1f)) := by
      intro _
      have := C188_parts p.machine (p.address (hbuf 2 0x8b1f)) [] (hbuf 2 0x8b1f) _
        (C187_null p.machine 0#32)
      rw [hbuf_eq, e1] at this ⊢
      exact this
    have h2 := sum_crcIf p h1 (hbuf 2 (8 + 256 * flg.toNat))
    have h3 : hbuf 2 (8 + 256 * flg.toNat) = [8, flg] := by rw [hbuf_eq, e2]
    rw [h3] at h2 ⊢
    exact h2
  constructor
  · intro hh
    unfold gzHead at hh
    cases hw : takeWord 2 input with
    | none => rw [hw] at hh; cases hh
    | some x =>
      obtain ⟨hold, rest⟩ := x
      rw [hw] at hh
      simp only at hh
      split at hh
      · cases hh
      · rename_i hne
        have hne := Decidable.not_not.mp hne
        subst hne
        rw [word_iff (takeWord_lt hw), e1] at hw
        cases hw2 : takeWord 2 rest with
        | none => rw [hw2] at hh; cases hh
        | some x =>
          obtain ⟨flags, rest2⟩ := x
          have hlt := takeWord_lt hw2
          rw [hw2] at hh
          simp only at hh
          split at hh
          · cases hh
          · rename_i h8
            have h8 := Decidable.not_not.mp h8
            split at hh
            · cases hh
            · rename_i h5
              have h5 := Decidable.not_not.mp h5
              have hmod : flags % 2 ^ 8 = 8 := by
                rw [← Nat.and_two_pow_sub_one_eq_mod]
                exact h8
              have hd : flags / 256 < 256 := by omega
              have hflags : flags = 8 + 256 * (UInt8.ofNat (flags / 256)).toNat := by
                rw [UInt8.toNat_ofNat', Nat.mod_eq_of_lt hd]
                omega
              rw [word_iff hlt] at hw2
              generalize UInt8.ofNat (flags / 256) = flg at hflags
              subst hflags
              obtain ⟨hf, hat⟩ := (gzTime_iff p (sum0 flg)).mp hh
              refine ⟨flg, rest2, ?_, (flag_bits flg).1.mp h5, hf, hat⟩
              rw [hw, hw2, e2]
              rfl
  · rintro ⟨flg, rest, rfl, h32, rfl, hh⟩
    have w1 : takeWord 2 ([0x1f, 0x8b, 8, flg] ++ rest) = some (0x8b1f, [8, flg] ++ rest) := by
      rw [word_iff (by decide), e1]
      rfl
    have hl := flg.toNat_lt
    have w2 : takeWord 2 ([8, flg] ++ rest) = some (8 + 256 * flg.toNat, rest) := by
      rw [word_iff (by omega), e2]
    have h8 : (8 + 256 * flg.toNat) &&& 0xff = 8 := by
      have := Nat.and_two_pow_sub_one_eq_mod (8 + 256 * flg.toNat) 8
      rw [show (2 : Nat) ^ 8 - 1 = 0xff from rfl] at this
      rw [this]
      omega
    unfold gzHead
    rw [w1]
    simp only [w2]
    rw [if_neg (by simp), if_neg (by simp [h8]), if_neg (by simp [(flag_bits flg).1.mpr h32])]
    exact (gzTime_iff p (sum0 flg)).mpr ⟨rfl, hh⟩

/-- C204.  The states from `HEAD` to `HCRC` accept exactly the heads of gzip members, and leave
exactly what is behind them. -/
theorem C204_head (p : Place) (input : List Byte) (b : Bits) :
    (∃ f, gzHead p input = .ok f b) ↔
      ∃ hdr rest, input = hdr ++ rest ∧ GzHeader hdr ∧ b = ⟨0, 0, rest⟩ := by
  constructor
  · rintro ⟨f, hh⟩
    obtain ⟨flg, r0, rfl, h32, _, six, r1, rfl, h6, extra, r2, rfl, he, name, r3, rfl, hn, comment,
      r4, rfl, hc, crc, rest, rfl, rfl, hk⟩ := (gzHead_iff p).mp hh
    obtain ⟨_, b1, b2, b3, b4⟩ := flag_bits flg
    rw [field_iff b2] at he
    rw [field_iff b3] at hn
    rw [field_iff b4] at hc
    rw [field_iff b1] at hk
    exact ⟨[0x1f, 0x8b, 8, flg] ++ six ++ extra ++ name ++ comment ++ crc, rest,
      by simp only [List.append_assoc],
      ⟨flg, six, extra, name, comment, crc, rfl, h32, h6, he, hn, hc, hk⟩, rfl⟩
  · rintro ⟨hdr, rest, rfl, ⟨flg, six, extra, name, comment, crc, rfl, h32, h6, he, hn, hc, hk⟩, rfl⟩
    obtain ⟨_, b1, b2, b3, b4⟩ := flag_bits flg
    rw [← field_iff b2] at he
    rw [← field_iff b3] at hn
    rw [← field_iff b4] at hc
    rw [← field_iff b1] at hk
    exact ⟨_, (gzHead_iff p).mpr ⟨flg, six ++ (extra ++ (name ++ (comment ++ (crc ++ rest)))),
      by simp only [List.append_assoc], h32, rfl, six, _, rfl, h6, extra, _, rfl, he, name, _, rfl, hn,
      comment, _, rfl, hc, crc, rest, rfl, rfl, hk⟩⟩

/-- C204.  Where the head ends is determined by what it is. -/
theorem C204_unique {h1 h2 r1 r2 : List Byte} (g1 : GzHeader h1) (g2 : GzHeader h2)
    (e : h1 ++ r1 = h2 ++ r2) : h1 = h2 := by
  let p : Place := ⟨.plain, fun _ => 0⟩
  obtain ⟨f1, e1⟩ := (C204_head p (h1 ++ r1) ⟨0, 0, r1⟩).mpr ⟨h1, r1, rfl, g1, rfl⟩
  obtain ⟨f2, e2⟩ := (C204_head p (h1 ++ r1) ⟨0, 0, r2⟩).mpr ⟨h2, r2, e, g2, rfl⟩
  rw [e1] at e2
  simp only [Read.ok.injEq, Bits.mk.injEq, true_and] at e2
  rw [← e2.2] at e
  exact List.append_cancel_right e

/-! What is refused is refused whatever follows. -/

theorem takeWord_append {k w : Nat} {input rest : List Byte} (ext : List Byte)
    (h : takeWord k input = some (w, rest)) : takeWord k (input ++ ext) = some (w, rest ++ ext) := by
  have hlt := takeWord_lt h
  rw [word_iff hlt] at h ⊢
  rw [h, List.append_assoc]

theorem untilZero_append {input s rest : List Byte} (ext : List Byte)
    (h : untilZero input = some (s, rest)) :
    untilZero (input ++ ext) = some (s, rest ++ ext) := by
  rw [untilZero_iff] at h ⊢
  exact ⟨by rw [h.1, List.append_assoc], h.2⟩

theorem gzHcrc_bad {flags : Nat} {check : U4} {input : List Byte} (ext : List Byte)
    (h : gzHcrc flags check input = .bad) : gzHcrc flags check (input ++ ext) = .bad := by
  unfold gzHcrc at h ⊢
  split
  · rename_i hf
    rw [if_pos hf] at h
    cases hw : takeWord 2 input with
    | none => rw [hw] at h; cases h
    | some x =>
      rw [hw] at h
      rw [takeWord_append ext hw]
      simp only at h ⊢
      split at h
      · rename_i hne
        rw [if_pos hne]
      · cases h
  · rename_i hf
    rw [if_neg hf] at h
    cases h

theorem gzComment_bad (p : Place) {flags : Nat} {check : U4} {input : List Byte} (ext : List Byte)
    (h : gzComment p flags check input = .bad) :
    gzComment p flags check (input ++ ext) = .bad := by
  unfold gzComment at h ⊢
  split
  · rename_i hf
    rw [if_pos hf] at h
    cases hw : untilZero input with
    | none => rw [hw] at h; cases h
    | some x =>
      rw [hw] at h
      rw [untilZero_append ext hw]
      exact gzHcrc_bad ext h
  · rename_i hf
    rw [if_neg hf] at h
    exact gzHcrc_bad ext h

theorem gzName_bad (p : Place) {flags : Nat} {check : U4} {input : List Byte} (ext : List Byte)
    (h : gzName p flags check input = .bad) : gzName p flags check (input ++ ext) = .bad := by
  unfold gzName at h ⊢
  split
  · rename_i hf
    rw [if_pos hf] at h
    cases hw : untilZero input with
    | none => rw [hw] at h; cases h
    | some x =>
      rw [hw] at h
      rw [untilZero_append ext hw]
      exact gzComment_bad p ext h
  · rename_i hf
    rw [if_neg hf] at h
    exact gzComment_bad p ext h

theorem gzExtra_bad (p : Place) {flags : Nat} {check : U4} {input : List Byte} (ext : List Byte)
    (h : gzExtra p flags check input = .bad) : gzExtra p flags check (input ++ ext) = .bad := by
  unfold gzExtra at h ⊢
  split
  · rename_i hf
    rw [if_pos hf] at h
    cases hw : takeWord 2 input with
    | none => rw [hw] at h; cases h
    | some x =>
      obtain ⟨hold, rest⟩ := x
      rw [hw] at h
      rw [takeWord_append ext hw]
      simp only at h ⊢
      split at h
      · cases h
      · rename_i hle
        rw [if_neg (by simp; omega), List.take_append_of_le_length (by omega),
          List.drop_append_of_le_length (by omega)]
        exact gzName_bad p ext h
  · rename_i hf
    rw [if_neg hf] at h
    exact gzName_bad p ext h

/-- C204.  What is refused as a head is refused whatever follows. -/
theorem C204_refused (p : Place) (input ext : List Byte) (h : gzHead p input = .bad) :
    gzHead p (input ++ ext) = .bad ∧
      ¬ ∃ hdr rest, input ++ ext = hdr ++ rest ∧ GzHeader hdr := by
  have hbad : gzHead p (input ++ ext) = .bad := by
    unfold gzHead at h ⊢
    cases hw : takeWord 2 input with
    | none => rw [hw] at h; cases h
    | some x =>
      obtain ⟨hold, rest⟩ := x
      rw [hw] at h
      rw [takeWord_append ext hw]
      simp only at h ⊢
      split
      · rfl
      · rename_i hne
        rw [if_neg hne] at h
        cases hw2 : takeWord 2 rest with
        | none => rw [hw2] at h; cases h
        | some x =>
          obtain ⟨flags, rest2⟩ := x
          rw [hw2] at h
          rw [takeWord_append ext hw2]
          simp only at h ⊢
          split
          · rfl
          · rename_i h8
            rw [if_neg h8] at h
            split
            · rfl
            · rename_i h5
              rw [if_neg h5] at h
              unfold gzTime at h ⊢
              cases hw3 : takeWord 4 rest2 with
              | none => rw [hw3] at h; cases h
              | some x =>
                obtain ⟨hold3, rest3⟩ := x
                rw [hw3] at h
                rw [takeWord_append ext hw3]
                simp only at h ⊢
                cases hw4 : takeWord 2 rest3 with
                | none => rw [hw4] at h; cases h
                | some x =>
                  obtain ⟨hold4, rest4⟩ := x
                  rw [hw4] at h
                  rw [takeWord_append ext hw4]
                  exact gzExtra_bad p ext h
  refine ⟨hbad, ?_⟩
  rintro ⟨hdr, rest, e, hg⟩
  obtain ⟨f, hf⟩ := (C204_head p (input ++ ext) ⟨0, 0, rest⟩).mpr ⟨hdr, rest, e, hg, rfl⟩
  rw [hbad] at hf
  cases hf

/-! ### C205 -/

theorem updateAll_crc (p : Place) (pieces : List (List Byte)) : ∀ (done : List Byte) (check : U4),
    IsCrc done check → IsCrc (done ++ pieces.flatten) (updateAll p check pieces) := by
  unfold updateAll
  induction pieces with
  | nil =>
    intro done check h
    rw [List.flatten_nil, List.append_nil, List.foldl_nil]
    exact h
  | cons s pieces ih =>
    intro done check h
    rw [List.foldl_cons, List.flatten_cons, ← List.append_assoc]
    apply ih
    by_cases h0 : s.length ≠ 0
    · rw [if_pos h0]
      exact C188_parts p.machine _ done s check h
    · rw [if_neg h0, List.eq_nil_of_length_eq_zero (Decidable.not_not.mp h0), List.append_nil]
      exact h

/-- C205.  However the content was written in pieces, the end of a member is accepted exactly if it
is the CRC of the content and its length. -/
theorem C205_tail (p : Place) (pieces : List (List Byte)) (input : List Byte) (b : Bits) :
    gzTail p pieces input = .ok () b ↔
      ∃ tail rest, input = tail ++ rest ∧ GzTrailer pieces.flatten tail ∧ b = ⟨0, 0, rest⟩ := by
  have hcrc : IsCrc pieces.flatten (updateAll p (crc32 p.machine 0#32 none) pieces) := by
    simpa using updateAll_crc p pieces [] _ (C187_null p.machine 0#32)
  have hlen : (pieces.map List.length).sum &&& 0xffffffff = pieces.flatten.length % 2 ^ (8 * 4) := by
    rw [← List.length_flatten]
    exact Nat.and_two_pow_sub_one_eq_mod _ 32
  have hc4 : (updateAll p (crc32 p.machine 0#32 none) pieces).toNat < 2 ^ (8 * 4) := BitVec.isLt _
  unfold gzTail
  rw [hlen]
  constructor
  · intro hh
    cases hw : takeWord 4 input with
    | none => rw [hw] at hh; cases hh
    | some x =>
      obtain ⟨hold, rest⟩ := x
      rw [hw] at hh
      simp only at hh
      split at hh
      · cases hh
      · rename_i hne
        have hne := Decidable.not_not.mp hne
        rw [word_iff (takeWord_lt hw)] at hw
        cases hw2 : takeWord 4 rest with
        | none => rw [hw2] at hh; cases hh
        | some x =>
          obtain ⟨hold2, rest2⟩ := x
          rw [hw2] at hh
          simp only at hh
          split at hh
          · cases hh
          · rename_i hne2
            have hne2 := Decidable.not_not.mp hne2
            rw [word_iff (takeWord_lt hw2)] at hw2
            simp only [Read.ok.injEq, true_and] at hh
            refine ⟨_, rest2, ?_, ⟨_, hcrc, rfl⟩, hh.symm⟩
            rw [hw, hw2, hne, hne2, bytes_mod, List.append_assoc]
  · rintro ⟨tail, rest, rfl, ⟨c, hc, rfl⟩, rfl⟩
    have := C187_unique _ _ _ hc hcrc
    subst this
    rw [List.append_assoc, (word_iff hc4).mpr rfl]
    simp only
    have w2 : takeWord 4 (bytesOf 4 pieces.flatten.length ++ rest) =
        some (pieces.flatten.length % 2 ^ (8 * 4), rest) := by
      rw [word_iff (Nat.mod_lt _ (by decide)), bytes_mod]
    rw [w2]
    simp

/-- C205.  An end that does not say the CRC or the length of the content is refused. -/
theorem C205_refused (p : Place) (pieces : List (List Byte)) (tail rest : List Byte)
    (h8 : tail.length = 8) (h : ¬ GzTrailer pieces.flatten tail) :
    gzTail p pieces (tail ++ rest) = .bad := by
  have hnot : ∀ b, gzTail p pieces (tail ++ rest) ≠ .ok () b := by
    intro b hb
    obtain ⟨tail', rest', e, ht, _⟩ := (C205_tail p pieces _ b).mp hb
    have hl : tail'.length = 8 := by
      obtain ⟨c, _, rfl⟩ := ht
      simp [bytesOf_length]
    have := List.append_inj_left e (by rw [h8, hl])
    rw [this] at h
    exact h ht
  have hmore : gzTail p pieces (tail ++ rest) ≠ .more := by
    unfold gzTail
    rw [takeWord_some (by simp; omega)]
    simp only
    split
    · intro h; cases h
    · rw [takeWord_some (by simp; omega)]
      simp only
      split
      · intro h; cases h
      · intro h; cases h
  cases hr : gzTail p pieces (tail ++ rest) with
  | bad => rfl
  | more => exact absurd hr hmore
  | ok u b => exact absurd hr (hnot b)

/-! ### C206 -/

theorem blocks_whole {s t : Nat} {cs : List Cmd} {r : Outcome Unit} (h : Blocks s t cs r) :
    ∀ u s1 t1, r = .got u s1 t1 → t1 % 8 = 0 := by
  induction h with
  | cut _ => intro u s1 t1 e; cases e
  | more _ _ => intro u s1 t1 e; cases e
  | wrong _ _ => intro u s1 t1 e; cases e
  | last _ _ _ =>
    intro u s1 t1 e
    injection e with _ _ e
    rw [← e]
    simp only [toByte]
    omega
  | next _ _ _ _ ih => exact ih

/-- What is left behind a stream is a number of whole bytes. -/
theorem stream_rest (old : Nat → Nat → Nat) {mid : List Byte} {cs : List Cmd} {s t : Nat}
    (h : Blocks (streamOf mid) (8 * mid.length) cs (.got () s t)) :
    ∃ rest, (takeStream old mid).2 = .ok () ⟨0, 0, rest⟩ ∧ streamOf rest = s ∧
      8 * rest.length = t := by
  obtain ⟨_, b, e1, e2, e3, e4, e5⟩ := C203_stream old mid h
  have ht := blocks_whole h _ _ _ rfl
  have hb : b.bits = 0 := by
    unfold Bits.total at e3
    omega
  have hh : b.hold = 0 := by
    rw [hb] at e4
    omega
  have hbe : b = ⟨0, 0, b.next⟩ := by
    cases b
    simp only at hb hh
    simp [hb, hh]
  refine ⟨b.next, by rw [← hbe]; exact e1, ?_, ?_⟩
  · rw [← e2]
    simp [Bits.stream, hb, hh]
  · rw [← e3]
    simp [Bits.total, hb]

theorem streamOf_inj {x y : List Byte} (hl : x.length = y.length) (h : streamOf x = streamOf y) :
    x = y := by
  have h1 := bytesOf_stream x.length x (Nat.le_refl _)
  have h2 := bytesOf_stream y.length y (Nat.le_refl _)
  rw [List.take_length] at h1 h2
  rw [← h1, ← h2, h, hl]

/-- C206.  A member of a gzip file is accepted, whatever the pieces in which its content is written, and
the rest of the input is left. -/
theorem C206_accepts (p : Place) (old : Nat → Nat → Nat) {input out rest : List Byte}
    (h : Member input out rest) (pieces : List (List Byte)) (hp : pieces.flatten = out) :
    gunzip p old pieces input = .ok () ⟨0, 0, rest⟩ := by
  obtain ⟨hdr, mid, tail, cs, rfl, hg, hb, _, ht⟩ := h
  obtain ⟨f, hf⟩ := (C204_head p (hdr ++ mid) ⟨0, 0, mid⟩).mpr ⟨hdr, mid, rfl, hg, rfl⟩
  obtain ⟨r, e1, e2, e3⟩ := stream_rest old hb
  have hr : r = tail ++ rest := streamOf_inj (by omega) e2
  unfold gunzip
  rw [hf]
  simp only [e1]
  exact (C205_tail p pieces r _).mpr ⟨tail, rest, hr, by rwa [hp], rfl⟩

/-- C206.  What is accepted is a member of a gzip file, if what was written is what the blocks in it
mean (which it is by C203). -/
theorem C206_sound (p : Place) (old : Nat → Nat → Nat) {input : List Byte}
    {pieces : List (List Byte)} {b : Bits} (h : gunzip p old pieces input = .ok () b)
    (hp : ∀ hdr mid cs r, input = hdr ++ mid → GzHeader hdr →
      Blocks (streamOf mid) (8 * mid.length) cs r → expand [] cs = (pieces.flatten, true)) :
    ∃ rest, b = ⟨0, 0, rest⟩ ∧ Member input pieces.flatten rest := by
  unfold gunzip at h
  cases hg : gzHead p input with
  | more => rw [hg] at h; cases h
  | bad => rw [hg] at h; cases h
  | ok f b0 =>
    rw [hg] at h
    obtain ⟨hdr, mid, rfl, hhdr, rfl⟩ := (C204_head p input b0).mp ⟨f, hg⟩
    simp only at h
    obtain ⟨cs, r, hbl⟩ := C203_outcome (streamOf mid) (8 * mid.length)
    have hfol := C203_stream old mid hbl
    cases r with
    | more =>
      rw [show (takeStream old mid).2 = .more from hfol.2] at h
      cases h
    | bad =>
      rw [show (takeStream old mid).2 = .bad from hfol.2] at h
      cases h
    | got u s t =>
      obtain ⟨r, e1, rfl, rfl⟩ := stream_rest old hbl
      rw [e1] at h
      obtain ⟨tail, rest, rfl, ht, rfl⟩ := (C205_tail p pieces _ b).mp h
      exact ⟨rest, rfl, hdr, mid, tail, cs, rfl, hhdr, hbl, hp hdr mid cs _ rfl hhdr hbl, ht⟩

/-- C206.  A damaged member: if something else is written than the CRC at the end is for, this is
reported. -/
theorem C206_damaged (p : Place) (old : Nat → Nat → Nat) {hdr mid tail rest : List Byte}
    {cs : List Cmd} (hg : GzHeader hdr)
    (hb : Blocks (streamOf mid) (8 * mid.length) cs
      (.got () (streamOf (tail ++ rest)) (8 * (tail ++ rest).length)))
    (h8 : tail.length = 8) (pieces : List (List Byte)) (ht : ¬ GzTrailer pieces.flatten tail) :
    gunzip p old pieces (hdr ++ mid) = .bad := by
  obtain ⟨f, hf⟩ := (C204_head p (hdr ++ mid) ⟨0, 0, mid⟩).mpr ⟨hdr, mid, rfl, hg, rfl⟩
  obtain ⟨r, e1, e2, e3⟩ := stream_rest old hb
  have hr : r = tail ++ rest := streamOf_inj (by omega) e2
  unfold gunzip
  rw [hf]
  simp only [e1]
  rw [hr]
  exact C205_refused p pieces tail rest h8 ht

/-- C206.  Over any number of calls the content of a member is what is written. -/
theorem C206_content (old : Nat → Nat → Nat) {memory : List Byte} (hm : memory.length = 32768)
    {mid out : List Byte} {cs : List Cmd} {r : Outcome Unit}
    (hb : Blocks (streamOf mid) (8 * mid.length) cs r) (he : expand [] cs = (out, true))
    (calls : List (Nat × List (Bool × Cmd))) (space : Nat) (cmds : List (Bool × Cmd))
    (hcs : allCmds calls ++ plain cmds = (takeStream old mid).1) :
    ∃ s1 before s2 made, inflateCalls 15 (freshStream memory) calls = some (s1, before) ∧
      inflateCall 15 s1 space cmds = some (s2, made) ∧ before ++ made <+: out ∧
      s2.mode ≠ .bad ∧ (made.length < space → before ++ made = out) := by
  obtain ⟨hall, s1, before, s2, made, h1, h2, h3, _, h5, h6, _⟩ :=
    C203_output old mid hb hm calls space cmds hcs
  rw [hall, he] at h3 h5 h6
  refine ⟨s1, before, s2, made, h1, h2, by simpa using h3, ?_, ?_⟩
  · intro hbad
    have := h6 hbad
    simp at this
  · intro hlt
    simpa using (h5 hlt).1

/-! ### Examples -/

deriving instance DecidableEq for Bits
deriving instance DecidableEq for Read

/-- A head with a name, a comment and a CRC. -/
def sampleGz : List Byte := [0x1f, 0x8b, 8, 0x1a, 0, 0, 0, 0, 0, 3, 97, 0, 98, 0, 0xcb, 0x62]

theorem sampleGz_head : GzHeader sampleGz := by
  have hcrc : IsCrc [0x1f, 0x8b, 8, 0x1a, 0, 0, 0, 0, 0, 3, 97, 0, 98, 0] 0x7f9a62cb#32 := by
    have := C187_crc .plain 1 [0x1f, 0x8b, 8, 0x1a, 0, 0, 0, 0, 0, 3, 97, 0, 98, 0]
    rwa [show crc32 .plain 0#32 (some (1, [0x1f, 0x8b, 8, 0x1a, 0, 0, 0, 0, 0, 3, 97, 0, 98, 0])) =
      0x7f9a62cb#32 by decide +kernel] at this
  exact ⟨0x1a, [0, 0, 0, 0, 0, 3], [], [97, 0], [98, 0], [0xcb, 0x62], rfl, by decide, rfl,
    by unfold Field; rw [if_neg (by decide)], ⟨[97], by decide, rfl⟩, ⟨[98], by decide, rfl⟩,
    ⟨0x7f9a62cb#32, hcrc, by decide⟩⟩

/-- With another CRC it is refused. -/
example : gzHead ⟨.plain, fun _ => 1⟩
    [0x1f, 0x8b, 8, 0x1a, 0, 0, 0, 0, 0, 3, 97, 0, 98, 0, 0xcb, 0x63] = .bad := by decide +kernel

example : GzTrailer [97, 97, 97, 97] [0x45, 0xe5, 0x98, 0xad, 4, 0, 0, 0] := by
  have hcrc : IsCrc [97, 97, 97, 97] 0xad98e545#32 := by
    have := C187_crc .plain 1 [97, 97, 97, 97]
    rwa [show crc32 .plain 0#32 (some (1, [97, 97, 97, 97])) = 0xad98e545#32 by decide +kernel] at this
  exact ⟨_, hcrc, by decide⟩

/-- A member with the content `aaaa`, and something behind it. -/
def sampleMember : List Byte := sampleGz ++ [75, 4, 2, 0, 0x45, 0xe5, 0x98, 0xad, 4, 0, 0, 0, 7, 9]

theorem sampleMember_ok : gunzip ⟨.plain, fun _ => 1⟩ (fun _ _ => 0) [[97], [97, 97, 97]]
    sampleMember = .ok () ⟨0, 0, [7, 9]⟩ := by decide +kernel

example : Member sampleMember [97, 97, 97, 97] [7, 9] := by
  obtain ⟨rest, e, h⟩ := C206_sound _ _ sampleMember_ok (by
    intro hdr mid cs r e hg hb
    obtain rfl : sampleGz = hdr := C204_unique sampleGz_head hg e
    obtain rfl := List.append_cancel_left e
    rw [← (C203_stream (fun _ _ => 0) _ hb).1]
    decide +kernel)
  simp only [Bits.mk.injEq, true_and] at e
  rw [← e] at h
  exact h

example : gunzip ⟨.plain, fun _ => 1⟩ (fun _ _ => 0) [[97], [97, 98, 97]] sampleMember = .bad := by
  decide +kernel

end Verif.Zlib
