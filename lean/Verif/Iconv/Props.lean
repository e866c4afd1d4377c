import Verif.Iconv.Safe
import Verif.Utf8.Spec

set_option maxRecDepth 20000

/-!
Properties of the character set conversions.
-/
namespace Verif.Iconv
open Verif Spec

/-! ## C112: character sets of one byte -/

/-- What a byte stands for, by the upper half of a table. -/
def Spec.meaning (upper : List Nat) (b : Nat) : Option Nat :=
  if b < 128 then some b else if upper.getD (b - 128) 0 = 0 then none else some (upper.getD (b - 128) 0)

/-- Encoding and decoding are inverse to each other: a character is written as a byte if and only if that byte is read
as the character, for all 28 character sets and all numbers of characters. -/
theorem C112_inverse (t : OneByte) (ht : t ∈ oneByteSets) (b c : Nat) : t.wctomb c = some b ↔ b < 256 ∧ t.mbtowc b = some c :=
  OneByte.inverse (oneByteSets_ok t ht) b c

/-- No two characters are written as the same byte, and no two bytes are read as the same character. -/
theorem C112_injective (t : OneByte) (ht : t ∈ oneByteSets) (c d b : Nat) (h1 : t.wctomb c = some b) (h2 : t.wctomb d = some b) : c = d := by
  have a1 := ((C112_inverse t ht b c).1 h1).2
  have a2 := ((C112_inverse t ht b d).1 h2).2
  rw [a1] at a2
  exact Option.some.inj a2

/-- The 25 character sets and their tables. -/
def standards : List (OneByte × List Nat) :=
  [(iso8859_1, Spec.iso8859_1), (iso8859_2, Spec.iso8859_2), (iso8859_3, Spec.iso8859_3), (iso8859_4, Spec.iso8859_4), (iso8859_5, Spec.iso8859_5),
    (iso8859_6, Spec.iso8859_6), (iso8859_7, Spec.iso8859_7), (iso8859_8, Spec.iso8859_8), (iso8859_9, Spec.iso8859_9), (iso8859_10, Spec.iso8859_10),
    (iso8859_11, Spec.iso8859_11), (iso8859_13, Spec.iso8859_13), (iso8859_14, Spec.iso8859_14), (iso8859_15, Spec.iso8859_15),
    (iso8859_16, Spec.iso8859_16), (cp1250, Spec.cp1250), (cp1251, Spec.cp1251), (cp1252, Spec.cp1252), (cp1253, Spec.cp1253), (cp1254, Spec.cp1254),
    (cp1256, Spec.cp1256), (cp1257, Spec.cp1257), (cp866, Spec.cp866), (koi8_r, Spec.koi8_r), (koi8_u, Spec.koi8_u)]

/-- The bytes stand for what the standard tables say. -/
theorem C112_standard : ∀ p ∈ standards, ∀ b < 256, p.1.mbtowc b = meaning p.2 b := by decide +kernel

/-- In ASCII the bytes from 128 on stand for nothing. -/
theorem C112_ascii : ∀ b < 256, ascii_.mbtowc b = if b < 128 then some b else none := by decide +kernel

/-- Mac Cyrillic differs from the standard table in three places. -/
theorem C112_mac_partial : ∀ b < 256, b ≠ 0xa2 → b ≠ 0xb6 → b ≠ 0xff → mac_cyrillic.mbtowc b = meaning Spec.mac_cyrillic b := by decide +kernel

theorem C112_mac_false : ¬ ∀ b < 256, mac_cyrillic.mbtowc b = meaning Spec.mac_cyrillic b := by
  intro h
  exact absurd (h 0xff (by decide)) (by decide +kernel)

example : iso8859_2 ∈ oneByteSets ∧ iso8859_2.mbtowc 0xb1 = some 0x105 ∧ iso8859_2.wctomb 0x105 = some 0xb1 ∧ cp1250.wctomb 0x105 = some 0xb9 := by
  refine ⟨by simp [oneByteSets], ?_, ?_, ?_⟩ <;> decide +kernel
example : (koi8_r, Spec.koi8_r) ∈ standards ∧ koi8_r.mbtowc 0xc1 = some 0x430 := ⟨by simp [standards], by decide +kernel⟩
example : mac_cyrillic.mbtowc 0xff = some 0xa4 ∧ meaning Spec.mac_cyrillic 0xff = some 0x20ac := by decide +kernel

/-! ## C113: UTF-8 -/

/-- The decoder reads a character if and only if the bytes begin with the encoding of that character (in the sense of
RFC 2279): no other forms, in particular no longer ones, are accepted. -/
theorem C113_decode (bs : Str) (c n : Nat) :
    utf8Mbtowc bs = .char c n ↔ Utf8Char c ∧ n = (Spec.utf8 c).length ∧ ∃ rest, bs = Spec.utf8 c ++ rest := by
  constructor
  · intro h
    obtain ⟨w, rest, h1, h2, h3⟩ := dec_enc h
    obtain ⟨h4, h5⟩ := utf8Enc_some h3
    subst h5
    exact ⟨h4, h2, rest, h1⟩
  · rintro ⟨h1, rfl, rest, rfl⟩
    exact (enc_dec (utf8Enc_eq h1) rest).2

/-- The encoder writes the encoding of the character, if there is one and if there is room. -/
theorem C113_encode (c n : Nat) :
    (Utf8Char c → utf8Wctomb c n = if n < (Spec.utf8 c).length then .tooSmall else .bytes (Spec.utf8 c)) ∧ (¬ Utf8Char c → utf8Wctomb c n = .iluni) := by
  refine ⟨fun h => utf8Wctomb_eq h n, fun h => ?_⟩
  unfold Utf8Char at h
  unfold utf8Wctomb utf8Count
  rw [if_neg (by omega), if_neg (by omega), if_neg (by omega), if_neg (by omega), if_neg (by omega), if_neg (by omega)]

/-- For Unicode characters this is UTF-8 as it is now (RFC 3629). -/
theorem C113_unicode_partial (c : Nat) (h : Utf8.Spec.Scalar c) : Spec.utf8 c = Utf8.Spec.encode c := by
  unfold Utf8.Spec.Scalar at h
  unfold Spec.utf8 Utf8.Spec.encode
  split
  · rfl
  split
  · rfl
  split
  · rfl
  · rw [if_pos (by omega)]; rfl

/-- But surrogates and numbers beyond Unicode are also read. -/
theorem C113_unicode_false : ¬ ∀ bs c n, utf8Mbtowc bs = .char c n → Utf8.Spec.Scalar c := by
  intro h
  have := h [0xed, 0xa0, 0x80] 0xd800 3 (by decide)
  unfold Utf8.Spec.Scalar at this
  omega

theorem utf8_prefix {c : Nat} (h : Utf8Char c) {p q : Str} (hp : p ≠ []) (hq : q ≠ []) (hpq : Spec.utf8 c = p ++ q) : utf8Mbtowc p = .few 0 := by
  unfold Utf8Char at h
  unfold Spec.utf8 at hpq
  have lead : ∀ n, n < 256 → (Spec.byte n).toNat = n := fun n hn => ofNat_toNat hn
  split at hpq
  · match p, hp with
    | [x], _ => simp at hpq; exact absurd hpq.2 hq
    | x :: y :: p, _ => simp at hpq
  split at hpq
  · match p, hp with
    | [x], _ =>
      simp only [List.cons_append, List.cons.injEq] at hpq
      rw [← hpq.1, utf8Mbtowc.eq_def]
      simp only
      rw [lead _ (by omega), if_neg (by omega), if_neg (by omega), if_pos (by omega)]
    | [x, y], _ => simp at hpq; exact absurd hpq.2.2 hq
    | x :: y :: z :: p, _ => simp at hpq
  split at hpq
  · match p, hp with
    | [x], _ =>
      simp only [List.cons_append, List.cons.injEq] at hpq
      rw [← hpq.1, utf8Mbtowc.eq_def]
      simp only
      rw [lead _ (by omega), if_neg (by omega), if_neg (by omega), if_neg (by omega), if_pos (by omega)]
    | [x, y], _ =>
      simp only [List.cons_append, List.cons.injEq] at hpq
      rw [← hpq.1, utf8Mbtowc.eq_def]
      simp only
      rw [lead _ (by omega), if_neg (by omega), if_neg (by omega), if_neg (by omega), if_pos (by omega)]
    | [x, y, z], _ => simp at hpq; exact absurd hpq.2.2.2 hq
    | x :: y :: z :: v :: p, _ => simp at hpq
  split at hpq
  · match p, hp with
    | [x], _ | [x, y], _ | [x, y, z], _ =>
      simp only [List.cons_append, List.cons.injEq] at hpq
      rw [← hpq.1, utf8Mbtowc.eq_def]
      simp only
      rw [lead _ (by omega), if_neg (by omega), if_neg (by omega), if_neg (by omega), if_neg (by omega), if_pos (by omega)]
    | [x, y, z, v], _ => simp at hpq; exact absurd hpq.2.2.2.2 hq
    | x :: y :: z :: v :: u :: p, _ => simp at hpq
  split at hpq
  · match p, hp with
    | [x], _ | [x, y], _ | [x, y, z], _ | [x, y, z, v], _ =>
      simp only [List.cons_append, List.cons.injEq] at hpq
      rw [← hpq.1, utf8Mbtowc.eq_def]
      simp only
      rw [lead _ (by omega), if_neg (by omega), if_neg (by omega), if_neg (by omega), if_neg (by omega), if_neg (by omega), if_pos (by omega)]
    | [x, y, z, v, u], _ => simp at hpq; exact absurd hpq.2.2.2.2.2 hq
    | x :: y :: z :: v :: u :: t :: p, _ => simp at hpq
  · match p, hp with
    | [x], _ | [x, y], _ | [x, y, z], _ | [x, y, z, v], _ | [x, y, z, v, u], _ =>
      simp only [List.cons_append, List.cons.injEq] at hpq
      rw [← hpq.1, utf8Mbtowc.eq_def]
      simp only
      rw [lead _ (by omega), if_neg (by omega), if_neg (by omega), if_neg (by omega), if_neg (by omega), if_neg (by omega), if_neg (by omega),
        if_pos (by omega)]
    | [x, y, z, v, u, t], _ => simp at hpq; exact absurd hpq.2.2.2.2.2.2 hq
    | x :: y :: z :: v :: u :: t :: s :: p, _ => simp at hpq

/-- The beginning of a character is told from illegal bytes. -/
theorem C113_few_partial (c : Nat) (h : Utf8Char c) (p q : Str) (hp : p ≠ []) (hq : q ≠ []) (hpq : Spec.utf8 c = p ++ q) : utf8Mbtowc p = .few 0 :=
  utf8_prefix h hp hq hpq

/-- But bytes that no character begins with may also be taken for the beginning of one. -/
theorem C113_few_false : ¬ ∀ p, utf8Mbtowc p = .few 0 → ∃ c q, Utf8Char c ∧ Spec.utf8 c = p ++ q := by
  intro h
  obtain ⟨c, q, h1, h2⟩ := h [0xe1, 0x41] (by decide)
  have h3 := (C113_decode (Spec.utf8 c ++ []) c _).2 ⟨h1, rfl, [], rfl⟩
  rw [List.append_nil, h2] at h3
  match q with
  | [] => exact absurd h3 (by simp [utf8Mbtowc])
  | x :: q =>
    have : utf8Mbtowc (0xe1 :: 0x41 :: x :: q) = .ilseq := by
      have : trail 0x41 = false := by decide
      simp [utf8Mbtowc, this]
    rw [show [0xe1, 0x41] ++ x :: q = (0xe1 :: 0x41 :: x :: q : Str) from rfl, this] at h3
    exact absurd h3 (by simp)

example : Utf8Char 0x17c ∧ Spec.utf8 0x17c = [0xc5, 0xbc] ∧ utf8Mbtowc [0xc5, 0xbc, 0x41] = .char 0x17c 2 ∧ utf8Mbtowc [0xc1, 0x81] = .ilseq :=
  ⟨by unfold Utf8Char; decide, by decide, by decide, by decide⟩
example : Utf8Char 0x10ffff ∧ Utf8.Spec.Scalar 0x10ffff ∧ Spec.utf8 0x10ffff = [0xf4, 0x8f, 0xbf] ++ [0xbf] := by
  refine ⟨by unfold Utf8Char; decide, by unfold Utf8.Spec.Scalar; omega, by decide⟩
example : ¬ Utf8Char 0x80000000 := by unfold Utf8Char; decide

/-! ## C116: the conversion of texts -/

/-- A text in one encoding all of whose characters the other encoding has is converted as a whole, if there is room for
more than the result: the code is OK, everything is consumed, and the result is the text in the other encoding (in UTF-7
possibly without its end). -/
theorem C116_whole (i o : Encoding) (ho : o.Ok) (cs : List Nat) (bs : Str) (h : Text i.kind cs bs) (hcs : ∀ c ∈ cs, Has o.kind c) :
    ∃ w, Output o.kind cs w ∧ ∀ op size, w.length < size →
      (convert i.codec o.codec op bs size).code = .ok ∧ (convert i.codec o.codec op bs size).consumed = bs.length ∧
        (convert i.codec o.codec op bs size).out = w := by
  obtain ⟨ie, hr⟩ := reads_of_text h
  obtain ⟨w, oe, hw, hout⟩ := writes_of_has ho hcs
  refine ⟨w, hout, fun op size hsz => ?_⟩
  obtain ⟨code, k, is', os', cs1, cs2, w1, w2, e1, e2, e3, e4, e5, e6, e7, e8, e9, e10, e11, e12, e13⟩ :=
    loop_run op size hr hw bs.length 0 [] (Nat.le_refl _) (by simp)
  simp only [List.length_nil, Nat.zero_add, List.nil_append] at e1 e10 e11
  have h10 := e10 (by omega)
  have h11 := e11 (by omega)
  have h2 : w2 = [] := by
    obtain ⟨-, rfl⟩ := h10
    cases e7; rfl
  rw [convert, convertFrom, e1]
  exact ⟨h10.1, h11, by rw [e3, h2, List.append_nil]⟩

/-- With any room, what is written is a part of the result, for some of the characters; the code is OK or says that there
is too little room; and the conversion can be continued from there to write the rest. -/
theorem C116_pieces (i o : Encoding) (ho : o.Ok) (cs : List Nat) (bs : Str) (h : Text i.kind cs bs) (hcs : ∀ c ∈ cs, Has o.kind c) :
    ∃ w, Output o.kind cs w ∧ ∀ op size, let r := convert i.codec o.codec op bs size
      r.out.length ≤ size ∧ (r.code = .ok ∨ r.code = .outTooSmall) ∧ (w.length ≤ size → r.out = w) ∧
      ∃ w2 cs1 cs2, w = r.out ++ w2 ∧ cs = cs1 ++ cs2 ∧ Output o.kind cs1 r.out ∧
        (r.code = .outTooSmall → cs2 ≠ []) ∧
        ∀ op2 size2, w2.length < size2 →
          (convertFrom i.codec o.codec op2 r.istate r.ostate (bs.drop r.consumed) size2).code = .ok ∧
          (convertFrom i.codec o.codec op2 r.istate r.ostate (bs.drop r.consumed) size2).consumed = bs.length - r.consumed ∧
          (convertFrom i.codec o.codec op2 r.istate r.ostate (bs.drop r.consumed) size2).out = w2 := by
  obtain ⟨ie, hr⟩ := reads_of_text h
  obtain ⟨w, oe, hw, hout⟩ := writes_of_has ho hcs
  refine ⟨w, hout, fun op size => ?_⟩
  obtain ⟨code, k, is', os', cs1, cs2, w1, w2, e1, e2, e3, e4, e5, e6, e7, e8, e9, e10, e11, e12, e13⟩ :=
    loop_run op size hr hw bs.length 0 [] (Nat.le_refl _) (by simp)
  simp only [List.length_nil, Nat.zero_add, List.nil_append] at e1 e8 e10 e11
  have er : convert i.codec o.codec op bs size = ⟨code, k, w1, is', os'⟩ := by rw [convert, convertFrom, e1]
  simp only [er]
  refine ⟨e8, e9, ?_, w2, cs1, cs2, e3, e2, ?_, ?_, ?_⟩
  · intro hle
    obtain ⟨-, rfl⟩ := e10 hle
    cases e7
    rw [e3, List.append_nil]
  · obtain ⟨w', oe', hw', hout'⟩ := writes_of_has ho (cs := cs1) (fun c hc => hcs c (by rw [e2]; simp [hc]))
    obtain ⟨rfl, -⟩ := e5.unique hw'
    exact hout'
  · intro hc
    obtain ⟨-, c, cs', rfl⟩ := e13 hc
    simp
  · intro op2 size2 hsz
    obtain ⟨code2, k2, is2, os2, cs3, cs4, w3, w4, g1, g2, g3, g4, g5, g6, g7, g8, g9, g10, g11, g12, g13⟩ :=
      loop_run op2 size2 e6 e7 (bs.drop k).length 0 [] (Nat.le_refl _) (by simp)
    simp only [List.length_nil, Nat.zero_add, List.nil_append] at g1 g10 g11
    have h10 := g10 (by omega)
    have h11 := g11 (by omega)
    have h2 : w4 = [] := by
      obtain ⟨-, rfl⟩ := h10
      cases g7; rfl
    rw [convertFrom, g1]
    exact ⟨h10.1, by rw [h11, List.length_drop], by rw [g3, h2, List.append_nil]⟩

/-- The code OK does not mean that the text has been converted: not if the room is filled exactly. -/
theorem C116_ok_false : ¬ ∀ (i o : Encoding) (bs : Str) (size : Nat),
    (convert i.codec o.codec (options 0) bs size).code = .ok → (convert i.codec o.codec (options 0) bs size).consumed = bs.length := by
  intro h
  have := h .utf8 (.one iso8859_2) b!"ab" 1 (by decide +kernel)
  exact absurd this (by decide +kernel)

/-- The states of a context after any series of calls of `tiniconv_convert`, whatever the results. -/
inductive Session (i o : Codec) : Nat → Nat → Prop
  | init : Session i o 0 0
  | call {is os : Nat} (op : Options) (bs : Str) (size : Nat) : Session i o is os →
      Session i o (convertFrom i o op is os bs size).istate (convertFrom i o op is os bs size).ostate

theorem Session.safe {i o : Encoding} {is os : Nat} (h : Session i.codec o.codec is os) : i.inState is ∧ o.outState os := by
  induction h with
  | init => exact ⟨i.safeIn.zero, o.safeOut.zero⟩
  | call op bs size _ ih =>
    have := loop_safe i.safeIn o.safeOut op size bs.length bs 0 [] _ _ (Nat.le_refl _) ih.1 ih.2 (by simp)
    exact ⟨this.2.2.2.1, this.2.2.2.2.1⟩

/-- Whatever the bytes, the options and the earlier calls: `abort()` is never called, nothing is read or written outside
the buffers, and the code OK means that everything has been consumed or that there is no room left. -/
theorem C116_safe (i o : Encoding) (is os : Nat) (h : Session i.codec o.codec is os) (op : Options) (bs : Str) (size : Nat) :
    let r := convertFrom i.codec o.codec op is os bs size
    r.code ≠ .abort ∧ r.consumed ≤ bs.length ∧ r.out.length ≤ size ∧ (r.code = .ok → r.consumed = bs.length ∨ r.out.length = size) := by
  obtain ⟨h1, h2, h3, -, -, -, h7⟩ := loop_safe i.safeIn o.safeOut op size bs.length bs 0 [] is os (Nat.le_refl _) h.safe.1 h.safe.2 (by simp)
  simp only [Nat.zero_add] at h2 h7
  exact ⟨h1, h2, h3, h7⟩

example : ∃ is os, is ≠ 0 ∧ Session utf7 utf8 is os := by
  refine ⟨_, _, ?_, Session.call (options 0) b!"BfA" 10 (Session.call (options 0) b!"+AEE" 1 .init)⟩
  decide +kernel

/-- Without options the conversion from UTF-8 stops at bytes with which no character begins; what precedes them is
converted. -/
theorem C116_illegal (o : Encoding) (ho : o.Ok) (cs : List Nat) (hcs : ∀ c ∈ cs, Utf8Char c ∧ Has o.kind c) (rest : Str) (hne : rest ≠ [])
    (hrest : ∀ c, Utf8Char c → ¬ Spec.utf8 c <+: rest) :
    ∃ w, Output o.kind cs w ∧ ∀ size, w.length < size → let r := convert Encoding.utf8.codec o.codec (options 0) (cs.flatMap Spec.utf8 ++ rest) size
      (r.code = .inIlseq ∨ r.code = .inTooSmall) ∧ r.consumed = (cs.flatMap Spec.utf8).length ∧ r.out = w := by
  obtain ⟨w, oe, hw, hout⟩ := writes_of_has ho (fun c hc => (hcs c hc).2)
  refine ⟨w, hout, fun size hsz => ?_⟩
  have hr := utf8_readsTo cs (fun c hc => (hcs c hc).1) rest 0
  obtain ⟨f', k, h1, h2, h3⟩ := loop_stop (options 0) size hr hw _ 0 [] (Nat.le_refl _) (by simpa using hsz)
  have hpos := List.length_pos_iff.2 hne
  obtain ⟨f', rfl⟩ : ∃ g, f' = g + 1 := ⟨f' - 1, by omega⟩
  simp only [List.length_append] at h2
  have hk : k = (cs.flatMap Spec.utf8).length := by omega
  have e : convert Encoding.utf8.codec o.codec (options 0) (cs.flatMap Spec.utf8 ++ rest) size = _ := h3
  rw [e, convertLoop, if_neg (by intro h; rcases h with h | h; exact hne h; simp at h; omega)]
  rcases utf8_stop hne hrest with hm | hm
  · have : utf8.mbtowc 0 rest = (.ilseq, 0) := by show (utf8Mbtowc rest, 0) = _; rw [hm]
    rw [this]
    simp [options, hk]
  · have : utf8.mbtowc 0 rest = (.few 0, 0) := by show (utf8Mbtowc rest, 0) = _; rw [hm]
    rw [this]
    simp [hk]

/-- Without options the conversion to a character set of one byte stops before the first character that the set has not. -/
theorem C116_unwritable (t : OneByte) (ht : t ∈ oneByteSets) (cs : List Nat) (hcs : ∀ c ∈ cs, Utf8Char c ∧ Has (.table t.mbtowc) c) (c : Nat)
    (hc : Utf8Char c) (hno : ¬ Has (.table t.mbtowc) c) (rest : Str) :
    ∃ w, Text (.table t.mbtowc) cs w ∧ ∀ size, w.length < size →
      let r := convert Encoding.utf8.codec t.codec (options 0) (cs.flatMap Spec.utf8 ++ (Spec.utf8 c ++ rest)) size
      r.code = .outIlseq ∧ r.consumed = (cs.flatMap Spec.utf8).length ∧ r.out = w := by
  obtain ⟨w, oe, hw, hout⟩ := writes_of_has (e := .one t) ht (fun c hc => (hcs c hc).2)
  refine ⟨w, hout, fun size hsz => ?_⟩
  have hr := utf8_readsTo cs (fun c hc => (hcs c hc).1) (Spec.utf8 c ++ rest) 0
  obtain ⟨f', k, h1, h2, h3⟩ := loop_stop (options 0) size hr hw _ 0 [] (Nat.le_refl _) (by simpa using hsz)
  have hne : Spec.utf8 c ++ rest ≠ [] := by simp [utf8_ne c]
  have hpos := List.length_pos_iff.2 hne
  obtain ⟨f', rfl⟩ : ∃ g, f' = g + 1 := ⟨f' - 1, by omega⟩
  simp only [List.length_append] at h2
  have hk : k = (cs.flatMap Spec.utf8).length := by omega
  have e : convert Encoding.utf8.codec t.codec (options 0) (cs.flatMap Spec.utf8 ++ (Spec.utf8 c ++ rest)) size = _ := h3
  rw [e, convertLoop, if_neg (by intro h; rcases h with h | h; exact hne h; simp at h; omega)]
  have hm : utf8.mbtowc 0 (Spec.utf8 c ++ rest) = (.char c (Spec.utf8 c).length, 0) := by
    show (utf8Mbtowc _, 0) = _
    rw [(C113_decode _ c _).2 ⟨hc, rfl, rest, rfl⟩]
  have hwc : t.wctomb c = none := by
    cases hb : t.wctomb c with
    | none => rfl
    | some b =>
      have := (C112_inverse t ht b c).1 hb
      exact absurd ⟨b, this⟩ hno
  rw [hm]
  simp [Encoding.codec, OneByte.codec, hwc, options, hk]

example : Text Encoding.utf8.kind [0x17c, 0x61] [0xc5, 0xbc, 0x61] ∧ (∀ c ∈ [0x17c, 0x61], Has (Encoding.one iso8859_2).kind c) := by
  refine ⟨⟨fun c _ => ?_, by decide⟩, fun c hc => ?_⟩
  · unfold Utf8Char; simp at *; omega
  · simp at hc
    rcases hc with rfl | rfl
    · exact ⟨0xbf, by decide, by decide +kernel⟩
    · exact ⟨0x61, by decide, by decide +kernel⟩
example : (convert Encoding.utf8.codec (Encoding.one iso8859_2).codec (options 0) [0xc5, 0xbc, 0x61] 10).out = [0xbf, 0x61] := by decide +kernel
example : ∀ c, Utf8Char c → ¬ Spec.utf8 c <+: [0xff] := by
  rintro c hc ⟨r, hr⟩
  have := (C113_decode [0xff] c _).2 ⟨hc, rfl, r, hr.symm⟩
  exact absurd this (by simp [utf8Mbtowc])
example : Utf8Char 0x430 ∧ ¬ Has (.table iso8859_2.mbtowc) 0x430 := by
  refine ⟨by unfold Utf8Char; decide, ?_⟩
  rintro ⟨b, hb, h⟩
  exact absurd h ((by decide +kernel : ∀ b < 256, iso8859_2.mbtowc b ≠ some 0x430) b hb)

/-! ## C114: UTF-7 -/

theorem Spec.Utf7.scalar {cs : List Nat} {bs : Str} (h : Utf7 cs bs) : ∀ c ∈ cs, Spec.Scalar c := by
  induction h with
  | nil => simp
  | @plain b cs bs _ _ ih =>
    intro c hc
    rcases List.mem_cons.1 hc with rfl | hc
    · have := UInt8.toNat_lt b
      exact ⟨by omega, by omega⟩
    · exact ih c hc
  | plus _ ih =>
    intro c hc
    rcases List.mem_cons.1 hc with rfl | hc
    · exact ⟨by decide, by decide⟩
    · exact ih c hc
  | closed _ hu _ _ ih =>
    intro c hc
    rcases List.mem_append.1 hc with hc | hc
    · exact hu c hc
    · exact ih c hc
  | broken _ hu _ _ _ ih =>
    intro c hc
    rcases List.mem_append.1 hc with hc | hc
    · exact hu c hc
    · exact ih c hc

/-- Every text in UTF-7 (RFC 2152) is read correctly. -/
theorem C114_decode (cs : List Nat) (bs : Str) (h : Utf7 cs bs) (op : Options) (size : Nat) (hsz : (cs.flatMap Spec.utf8).length < size) :
    let r := convert utf7 utf8 op bs size
    r.code = .ok ∧ r.consumed = bs.length ∧ r.out = cs.flatMap Spec.utf8 := by
  have hcs : ∀ c ∈ cs, Has Encoding.utf8.kind c := fun c hc => by
    have := (h.scalar c hc).1
    show c < 2 ^ 31
    omega
  obtain ⟨w, ⟨_, rfl⟩, hw⟩ := C116_whole .utf7 .utf8 trivial cs bs h hcs
  exact hw op size hsz

/-- What is written is text in UTF-7, once `utf7_reset` has written the end. -/
theorem C114_encode (cs : List Nat) (h : ∀ c ∈ cs, Spec.Scalar c) :
    ∃ w e, Utf7 cs (w ++ e) ∧ ∀ op size, w.length < size → let r := convert utf8 utf7 op (cs.flatMap Spec.utf8) size
      r.code = .ok ∧ r.out = w ∧ utf7Reset r.ostate = some e := by
  obtain ⟨w, se, r, h1, h2, h3⟩ := (utf7_write cs h).1
  have hc8 : ∀ c ∈ cs, Utf8Char c := fun c hc => by
    have := (h c hc).1
    show c < 2 ^ 31
    omega
  obtain ⟨ie, hr⟩ := reads_of_text (e := .utf8) (cs := cs) (bs := cs.flatMap Spec.utf8) ⟨hc8, rfl⟩
  refine ⟨w, r, h3, fun op size hsz => ?_⟩
  obtain ⟨code, k, is', os', cs1, cs2, w1, w2, e1, e2, e3, e4, e5, e6, e7, e8, e9, e10, e11, e12, e13⟩ :=
    loop_run op size hr h1 (cs.flatMap Spec.utf8).length 0 [] (Nat.le_refl _) (by simp)
  simp only [List.length_nil, Nat.zero_add, List.nil_append] at e1 e10
  obtain ⟨h10, rfl⟩ := e10 (by omega)
  cases e7
  have er : convert utf8 utf7 op (cs.flatMap Spec.utf8) size = _ := e1
  rw [er]
  exact ⟨h10, by rw [e3, List.append_nil], h2⟩

/-- The round trip, with the end. -/
theorem C114_round_trip (cs : List Nat) (h : ∀ c ∈ cs, Spec.Scalar c) (op : Options) (size : Nat) :
    ∃ w e, ((convert utf8 utf7 op (cs.flatMap Spec.utf8) (w.length + 1)).out = w) ∧
      utf7Reset (convert utf8 utf7 op (cs.flatMap Spec.utf8) (w.length + 1)).ostate = some e ∧
      ((cs.flatMap Spec.utf8).length < size → (convert utf7 utf8 op (w ++ e) size).out = cs.flatMap Spec.utf8) := by
  obtain ⟨w, e, h1, h2⟩ := C114_encode cs h
  have := h2 op (w.length + 1) (by omega)
  exact ⟨w, e, this.2.1, this.2.2, fun hsz => (C114_decode cs _ h1 op size hsz).2.2⟩

/-- `tiniconv_convert` does not write the end: the last character may be lost. -/
theorem C114_end_false : ¬ ∀ (cs : List Nat), (∀ c ∈ cs, Spec.Scalar c) →
    (convert utf7 utf8 (options 0) (convert utf8 utf7 (options 0) (cs.flatMap Spec.utf8) 100).out 100).out = cs.flatMap Spec.utf8 := by
  intro h
  have := h [0x17c] (by intro c hc; simp at hc; subst hc; exact ⟨by decide, by decide⟩)
  exact absurd this (by decide +kernel)

example : Utf7 [0x61, 0x17c, 0x2e] b!"a+AXw." := by
  have h1 : Utf7 [0x2e] b!"." := Utf7.plain (b := 0x2e) (by decide) .nil
  have h2 := Utf7.broken (us := [0x17c]) (t := b!"AXw") (by simp) (by intro u hu; simp at hu; subst hu; exact ⟨by decide, by decide⟩)
    ⟨[0, 23, 48], by decide, by decide, 2, by decide, by decide⟩ h1 (by intro b hb; simp at hb; subst hb; decide)
  exact Utf7.plain (b := 0x61) (by decide) h2
example : (convert utf7 utf8 (options 0) b!"a+AXw." 100).out = [0x61, 0xc5, 0xbc, 0x2e] := by decide +kernel
example : (convert utf8 utf7 (options 0) [0xc5, 0xbc] 100).out = b!"+AX" ∧ utf7Reset (convert utf8 utf7 (options 0) [0xc5, 0xbc] 100).ostate = some b!"w-" := by
  decide +kernel

/-! ## C115: UCS-2 -/

/-- Text in UCS-2 is read correctly, with byte order marks anywhere, in both byte orders. -/
theorem C115_decode (cs : List Nat) (bs : Str) (h : Ucs2 false cs bs) (op : Options) (size : Nat) (hsz : (cs.flatMap Spec.utf8).length < size) :
    let r := convert ucs2 utf8 op bs size
    r.code = .ok ∧ r.consumed = bs.length ∧ r.out = cs.flatMap Spec.utf8 := by
  have hcs : ∀ c ∈ cs, c < 0x10000 := by
    clear hsz
    generalize false = l at h
    induction h with
    | nil => simp
    | char hc _ ih =>
      intro c hm
      rcases List.mem_cons.1 hm with rfl | hm
      · exact hc.1
      · exact ih c hm
    | mark _ ih => exact ih
    | turn _ ih => exact ih
  obtain ⟨w, ⟨_, rfl⟩, hw⟩ := C116_whole .ucs2 .utf8 trivial cs bs h (fun c hc => by
    have := hcs c hc
    show c < 2 ^ 31
    omega)
  exact hw op size hsz

/-- What is written is text in UCS-2 standing for the same characters, big-endian and without a mark. -/
theorem C115_encode_partial (cs : List Nat) (h : ∀ c ∈ cs, Ucs2Char c) (op : Options) (size : Nat) (hsz : 2 * cs.length < size) :
    (convert utf8 ucs2 op (cs.flatMap Spec.utf8) size).code = .ok ∧ Ucs2 false cs (convert utf8 ucs2 op (cs.flatMap Spec.utf8) size).out := by
  have hlen : (cs.flatMap (two false)).length = 2 * cs.length := by
    clear h hsz
    induction cs with
    | nil => rfl
    | cons c cs ih => rw [List.flatMap_cons, List.length_append, ih, two_length, List.length_cons]; omega
  obtain ⟨w, rfl, hw⟩ := C116_whole .utf8 .ucs2 trivial cs (cs.flatMap Spec.utf8) ⟨fun c hc => by
    have := (h c hc).1
    show c < 2 ^ 31
    omega, rfl⟩ h
  obtain ⟨h1, -, h3⟩ := hw op size (by omega)
  refine ⟨h1, ?_⟩
  rw [show (convert utf8 ucs2 op (cs.flatMap Spec.utf8) size).out = _ from h3]
  clear hw h1 h3 hsz hlen
  induction cs with
  | nil => exact .nil _
  | cons c cs ih =>
    rw [List.flatMap_cons]
    exact .char (h c (by simp)) (ih (fun d hd => h d (by simp [hd])))

/-- U+FEFF is written although it will be taken for a byte order mark. -/
theorem C115_mark_false : ¬ ∀ (cs : List Nat), (∀ c ∈ cs, Utf8.Spec.Scalar c) →
    (convert utf8 ucs2 (options 0) (cs.flatMap Spec.utf8) 100).code = .ok →
    (convert ucs2 utf8 (options 0) (convert utf8 ucs2 (options 0) (cs.flatMap Spec.utf8) 100).out 100).out = cs.flatMap Spec.utf8 := by
  intro h
  have := h [0xfeff] (by intro c hc; simp at hc; subst hc; unfold Utf8.Spec.Scalar; omega) (by decide +kernel)
  exact absurd this (by decide +kernel)

example : Ucs2 false [0x41, 0x17c] [0xff, 0xfe, 0x41, 0x00, 0x7c, 0x01] :=
  Ucs2.turn (little := false) (.char ⟨by decide, by decide, by decide, by decide⟩ (.char ⟨by decide, by decide, by decide, by decide⟩ (.nil _)))
example : (convert ucs2 utf8 (options 0) [0xff, 0xfe, 0x41, 0x00, 0x7c, 0x01] 100).out = [0x41, 0xc5, 0xbc] := by decide +kernel

/-! ## C117: EncodingConverter -/

theorem cString_id {s : Str} (h : (0 : Byte) ∉ s) : cString s = s := by
  unfold cString
  induction s with
  | nil => rfl
  | cons b s ih =>
    have hb : b ≠ 0 := fun h0 => h (by simp [h0])
    rw [List.takeWhile_cons_of_pos (by simpa using hb), ih (fun h0 => h (by simp [h0]))]

theorem converter_eq {target src dst text : Str} {a b : Nat} {i o : Encoding} (ha : codeOf src = some a) (hb : codeOf dst = some b)
    (hi : charsetMap a = some i) (ho : charsetMap b = some o) (h1 : src ≠ asciiName) (h2 : src ≠ dst) (h3 : src ≠ target) :
    converter target src dst text = (convert_ i o text).map (fun r => r.getD text) := by
  unfold converter
  simp only [ha, hb, hi, ho]
  rw [if_neg (by simp [h1, h2, h3])]

/-- A text without zeros in an encoding, other than the target encoding, is converted if the result has no zeros and not
more than 99999 bytes. -/
theorem C117_convert_partial (target src dst : Str) (a b : Nat) (i o : Encoding) (ha : codeOf src = some a) (hb : codeOf dst = some b)
    (hi : charsetMap a = some i) (ho : charsetMap b = some o) (h1 : src ≠ asciiName) (h2 : src ≠ dst) (h3 : src ≠ target)
    (cs : List Nat) (text : Str) (ht : Text i.kind cs text) (hz : (0 : Byte) ∉ text) (hcs : ∀ c ∈ cs, Has o.kind c) :
    ∃ w, Output o.kind cs w ∧ ((0 : Byte) ∉ w → w.length ≤ 99999 → converter target src dst text = some w) := by
  obtain ⟨w, hw, hp⟩ := C116_pieces i o (charsetMap_ok ho) cs text ht hcs
  refine ⟨w, hw, fun hz2 hlen => ?_⟩
  rw [converter_eq ha hb hi ho h1 h2 h3]
  obtain ⟨-, hcode, hout, -⟩ := hp (options 0) (bufferSize - 1)
  have hout := hout (by unfold bufferSize; omega)
  unfold convert_
  simp only [cString_id hz, hout, cString_id hz2]
  rcases hcode with hc | hc <;> rw [hc] <;> rfl

/-- The names of the encodings and what the encodings are. -/
def namedStandards : List (Str × List Nat) :=
  [(b!"windows-1250", Spec.cp1250), (b!"windows-1251", Spec.cp1251), (b!"windows-1252", Spec.cp1252), (b!"windows-1253", Spec.cp1253),
    (b!"windows-1254", Spec.cp1254), (b!"windows-1256", Spec.cp1256), (b!"windows-1257", Spec.cp1257), (b!"ISO-8859-1", Spec.iso8859_1),
    (b!"ISO-8859-2", Spec.iso8859_2), (b!"ISO-8859-3", Spec.iso8859_3), (b!"ISO-8859-4", Spec.iso8859_4), (b!"ISO-8859-5", Spec.iso8859_5),
    (b!"ISO-8859-6", Spec.iso8859_6), (b!"ISO-8859-7", Spec.iso8859_7), (b!"ISO-8859-8", Spec.iso8859_8), (b!"ISO-8859-9", Spec.iso8859_9),
    (b!"ISO-8859-10", Spec.iso8859_10), (b!"ISO-8859-11", Spec.iso8859_11), (b!"ISO-8859-13", Spec.iso8859_13), (b!"ISO-8859-14", Spec.iso8859_14),
    (b!"ISO-8859-15", Spec.iso8859_15), (b!"ISO-8859-16", Spec.iso8859_16), (b!"CP866", Spec.cp866), (b!"KOI8-R", Spec.koi8_r), (b!"KOI8-U", Spec.koi8_u)]

theorem named_check : ∀ p ∈ namedStandards, (match (codeOf p.1).bind charsetMap with
    | some (.one t) => (List.range 256).all (fun b => t.mbtowc b == meaning p.2 b)
    | _ => false) = true := by decide +kernel

/-- The names stand for the encodings of these names. -/
theorem C117_encodings : (∀ p ∈ namedStandards, ∃ a t, codeOf p.1 = some a ∧ charsetMap a = some (.one t) ∧ ∀ b < 256, t.mbtowc b = meaning p.2 b) ∧
    (codeOf b!"UTF-8").bind charsetMap = some .utf8 ∧ (codeOf b!"UTF-7").bind charsetMap = some .utf7 ∧ (codeOf b!"UCS-2").bind charsetMap = some .ucs2 := by
  refine ⟨fun p hp => ?_, ?_, ?_, ?_⟩
  rotate_left
  · rw [show codeOf b!"UTF-8" = some 36 by decide +kernel]; rfl
  · rw [show codeOf b!"UTF-7" = some 35 by decide +kernel]; rfl
  · rw [show codeOf b!"UCS-2" = some 34 by decide +kernel]; rfl
  have h := named_check p hp
  cases ha : codeOf p.1 with
  | none => rw [ha] at h; simp at h
  | some a =>
    rw [ha] at h
    simp only [Option.bind_some] at h
    cases hc : charsetMap a with
    | none => rw [hc] at h; simp at h
    | some e =>
      rw [hc] at h
      cases e with
      | one t =>
        refine ⟨a, t, rfl, hc, fun b hb => ?_⟩
        simp only [List.all_eq_true, List.mem_range, beq_iff_eq] at h
        exact h b hb
      | utf8 => simp at h
      | ucs2 => simp at h
      | utf7 => simp at h

/-- The conversion is never aborted. -/
theorem C117_safe (target src dst text : Str) (a b : Nat) (i o : Encoding) (ha : codeOf src = some a) (hb : codeOf dst = some b)
    (hi : charsetMap a = some i) (ho : charsetMap b = some o) : converter target src dst text ≠ none := by
  have hs := (C116_safe i o 0 0 .init (options 0) (cString text) (bufferSize - 1)).1
  unfold converter
  simp only [ha, hb, hi, ho]
  split
  · simp
  · unfold convert_
    change (convert i.codec o.codec (options 0) (cString text) (bufferSize - 1)).code ≠ .abort at hs
    generalize convert i.codec o.codec (options 0) (cString text) (bufferSize - 1) = r at *
    rcases r with ⟨code, k, out, is, os⟩
    cases code <;> simp at *

/-- A longer result is cut off, silently: what is returned is a proper part of it. -/
theorem C117_long (target src dst : Str) (a b : Nat) (i o : Encoding) (ha : codeOf src = some a) (hb : codeOf dst = some b)
    (hi : charsetMap a = some i) (ho : charsetMap b = some o) (h1 : src ≠ asciiName) (h2 : src ≠ dst) (h3 : src ≠ target)
    (cs : List Nat) (text : Str) (ht : Text i.kind cs text) (hz : (0 : Byte) ∉ text) (hcs : ∀ c ∈ cs, Has o.kind c) :
    ∃ w, Output o.kind cs w ∧ ((0 : Byte) ∉ w → 99999 < w.length → ∃ w1 w2, w2 ≠ [] ∧ w = w1 ++ w2 ∧ converter target src dst text = some w1) := by
  obtain ⟨w, hw, hp⟩ := C116_pieces i o (charsetMap_ok ho) cs text ht hcs
  refine ⟨w, hw, fun hz2 hlen => ?_⟩
  rw [converter_eq ha hb hi ho h1 h2 h3]
  obtain ⟨hle, hcode, -, w2, -, -, hw2, -⟩ := hp (options 0) (bufferSize - 1)
  refine ⟨_, w2, ?_, hw2, ?_⟩
  · rintro rfl
    rw [List.append_nil] at hw2
    rw [← hw2] at hle
    unfold bufferSize at hle
    omega
  · unfold convert_
    have hz3 : (0 : Byte) ∉ (convert i.codec o.codec (options 0) text (bufferSize - 1)).out := fun h0 => hz2 (by rw [hw2]; simp [h0])
    simp only [cString_id hz, cString_id hz3]
    rcases hcode with hc | hc <;> rw [hc] <;> rfl

/-- So not all texts are converted as a whole. -/
theorem C117_long_false : ¬ ∀ (cs : List Nat), (∀ c ∈ cs, 0 < c ∧ Has (.table iso8859_2.mbtowc) c) →
    ∃ w, Text (.table iso8859_2.mbtowc) cs w ∧ converter b!"ISO-8859-2" b!"UTF-8" b!"ISO-8859-2" (cs.flatMap Spec.utf8) = some w := by
  intro h
  obtain ⟨n, hn⟩ : ∃ n, n = 100000 := ⟨_, rfl⟩
  have h97 : ∀ c ∈ List.replicate n 97, c = 97 := fun c hc => (List.mem_replicate.1 hc).2
  have hhas : Has (.table iso8859_2.mbtowc) 97 := ⟨97, by decide, by decide +kernel⟩
  obtain ⟨w, hw, hc⟩ := h (List.replicate n 97) (fun c hc => by rw [h97 c hc]; exact ⟨by decide, hhas⟩)
  have hflat : ∀ n : Nat, (List.replicate n 97).flatMap Spec.utf8 = List.replicate n (97 : Byte) := by
    intro n
    induction n with
    | zero => rfl
    | succ n ih => rw [List.replicate_succ, List.flatMap_cons, ih, List.replicate_succ]; rfl
  have hlw : w.length = n := by
    have := congrArg List.length hw
    simpa using this
  have hwz : w = List.replicate n 97 := by
    apply List.eq_replicate_iff.2
    refine ⟨hlw, fun b hb => ?_⟩
    have hw' : w.map (fun b => iso8859_2.mbtowc b.toNat) = List.replicate n (some 97) := by
      rw [show w.map _ = _ from hw, List.map_replicate]
    have hm : iso8859_2.mbtowc b.toNat ∈ w.map (fun b => iso8859_2.mbtowc b.toNat) := List.mem_map.2 ⟨b, hb, rfl⟩
    rw [hw'] at hm
    have h2 := (List.mem_replicate.1 hm).2
    have h3 := (C112_inverse iso8859_2 (by simp [oneByteSets]) b.toNat 97).2 ⟨UInt8.toNat_lt b, h2⟩
    have h4 : iso8859_2.wctomb 97 = some 97 := by decide +kernel
    rw [h4] at h3
    exact byte_ext (Option.some.inj h3).symm
  have ha : codeOf b!"UTF-8" = some 36 := by decide +kernel
  have hb : codeOf b!"ISO-8859-2" = some 15 := by decide +kernel
  have htext : Text Encoding.utf8.kind (List.replicate n 97) (List.replicate n (97 : Byte)) :=
    ⟨fun c hc => by rw [h97 c hc]; unfold Utf8Char; decide, (hflat n).symm⟩
  obtain ⟨w', hw', hl⟩ := C117_long b!"ISO-8859-2" b!"UTF-8" b!"ISO-8859-2" 36 15 .utf8 (.one iso8859_2) ha hb rfl rfl (by decide) (by decide) (by decide)
    (List.replicate n 97) _ htext (fun h0 => by have := (List.mem_replicate.1 h0).2; simp at this) (fun c hc => by rw [h97 c hc]; exact hhas)
  have hw'len : w'.length = n := by
    have := congrArg List.length (show w'.map _ = _ from hw')
    simpa using this
  have hzero : (0 : Byte) ∉ w' := by
    intro h0
    have hm : iso8859_2.mbtowc 0 ∈ w'.map (fun b => iso8859_2.mbtowc b.toNat) := List.mem_map.2 ⟨0, h0, rfl⟩
    rw [show w'.map (fun b => iso8859_2.mbtowc b.toNat) = _ from hw', List.map_replicate] at hm
    have h2 := (List.mem_replicate.1 hm).2
    exact absurd h2 (by decide +kernel)
  obtain ⟨w1, w2, hne, heq, hres⟩ := hl hzero (by omega)
  rw [hflat] at hc
  rw [hres] at hc
  injection hc with hc
  have := congrArg List.length heq
  rw [List.length_append, hc, hlw, hw'len] at this
  have := List.length_pos_iff.2 hne
  omega

/-- Unknown names leave the text as it is. -/
theorem C117_unknown (target src dst text : Str) (h : codeOf src = none ∨ codeOf dst = none) : converter target src dst text = some text := by
  unfold converter
  rcases h with h | h
  · rw [h]
  · rw [h]; cases codeOf src <;> rfl

/-- Illegal bytes, if recognized as such, leave the text as it is; so do characters that the encoding has not. -/
theorem C117_unwritable (target dst : Str) (b : Nat) (t : OneByte) (hb : codeOf dst = some b) (ht : charsetMap b = some (.one t)) (h2 : b!"UTF-8" ≠ dst)
    (h3 : b!"UTF-8" ≠ target) (cs : List Nat) (hcs : ∀ c ∈ cs, Utf8Char c ∧ Has (.table t.mbtowc) c) (c : Nat) (hc : Utf8Char c)
    (hno : ¬ Has (.table t.mbtowc) c) (rest : Str) (hz : (0 : Byte) ∉ cs.flatMap Spec.utf8 ++ (Spec.utf8 c ++ rest)) (hlen : cs.length < 99999) :
    converter target b!"UTF-8" dst (cs.flatMap Spec.utf8 ++ (Spec.utf8 c ++ rest)) = some (cs.flatMap Spec.utf8 ++ (Spec.utf8 c ++ rest)) := by
  obtain ⟨w, hw, hp⟩ := C116_unwritable t (charsetMap_ok (e := .one t) ht) cs hcs c hc hno rest
  have hl : w.length = cs.length := by
    have := congrArg List.length (show w.map _ = _ from hw)
    simpa using this
  obtain ⟨hcode, -, -⟩ := hp (bufferSize - 1) (by unfold bufferSize; omega)
  rw [converter_eq (a := 36) (i := .utf8) (by decide +kernel) hb rfl ht (by decide) h2 h3]
  unfold convert_
  simp only [cString_id hz]
  rw [show (convert Encoding.utf8.codec (Encoding.one t).codec (options 0) (cs.flatMap Spec.utf8 ++ (Spec.utf8 c ++ rest)) (bufferSize - 1)).code = _ from hcode]
  rfl

/-- Text whose last character is incomplete loses it, and bytes may be taken for an incomplete character: the text
is cut off, silently. -/
theorem C117_incomplete_false : ¬ ∀ (cs : List Nat) (rest : Str), (∀ c ∈ cs, Utf8.Spec.Scalar c) → rest ≠ [] → (∀ c, Utf8Char c → ¬ Spec.utf8 c <+: rest) →
    converter b!"ISO-8859-2" b!"UTF-8" b!"ISO-8859-2" (cs.flatMap Spec.utf8 ++ rest) = some (cs.flatMap Spec.utf8 ++ rest) := by
  intro h
  have := h [97] [0xf3, 0x64, 0x7a] (by intro c hc; simp at hc; subst hc; unfold Utf8.Spec.Scalar; omega) (by simp) (by
    rintro c hc ⟨r, hr⟩
    have := (C113_decode [0xf3, 0x64, 0x7a] c _).2 ⟨hc, rfl, r, hr.symm⟩
    exact absurd this (by simp [utf8Mbtowc]))
  exact absurd this (by decide +kernel)

/-- From the converter's own target encoding nothing is converted, whatever the encoding asked for. -/
theorem C117_target (target dst text : Str) : converter target target dst text = some text := by
  unfold converter
  split
  · rw [if_pos (.inr (.inr rfl))]
  · rfl

theorem C117_target_false : ¬ ∀ (dst text w : Str) (cs : List Nat) (b : Nat) (o : Encoding), codeOf dst = some b → charsetMap b = some o →
    Text .utf8 cs text → Text o.kind cs w → converter b!"UTF-8" b!"UTF-8" dst text = some w := by
  intro h
  have := h b!"ISO-8859-2" [0xc5, 0xbc] [0xbf] [0x17c] 15 (.one iso8859_2) (by decide +kernel) rfl
    ⟨by intro c hc; simp at hc; subst hc; unfold Utf8Char; decide, by decide⟩ (by show [_] = [_]; decide +kernel)
  rw [C117_target] at this
  exact absurd this (by decide)

/-- To UCS-2 hardly anything is converted: the result ends at the first zero. -/
theorem C117_ucs2_false : ¬ ∀ (text w : Str) (cs : List Nat), Text .utf8 cs text → Text .ucs2 cs w → w.length ≤ 99999 →
    ∃ w', Text .ucs2 cs w' ∧ converter b!"UCS-2" b!"UTF-8" b!"UCS-2" text = some w' := by
  intro h
  obtain ⟨w', h1, h2⟩ := h [97] [0, 97] [97] ⟨by intro c hc; simp at hc; subst hc; unfold Utf8Char; decide, by decide⟩
    (.char (little := false) ⟨by decide, by decide, by decide, by decide⟩ (.nil _)) (by decide)
  have h3 : converter b!"UCS-2" b!"UTF-8" b!"UCS-2" [97] = some [] := by decide +kernel
  rw [h3] at h2
  injection h2 with h2
  subst h2
  generalize hl : ([97] : List Nat) = l at h1
  cases h1 with
  | nil => simp at hl

/-- Three names that `uchardet` reports (LangCyrillicModel.cpp 336 and 345, nsEscSM.cpp 207) are not known under these names,
although the encodings are in the table: texts found to be in them are not converted. -/
theorem C117_names (target dst text : Str) : ∀ src ∈ [b!"x-mac-cyrillic", b!"IBM866", b!"ISO-2022-JP"], converter target src dst text = some text := by
  intro src hs
  apply C117_unknown
  left
  revert src
  decide +kernel

example : converter b!"UTF-8" b!"ISO-8859-2" b!"UTF-8" [0xbf, 0x61] = some [0xc5, 0xbc, 0x61] := by decide +kernel
example : codeOf b!"ISO-8859-2" = some 15 ∧ codeOf b!"UTF-8" = some 36 ∧ codeOf b!"latin-2" = none := by decide +kernel
example : converter b!"ISO-8859-2" b!"UTF-8" b!"ISO-8859-2" [0x61, 0xf3, 0x64, 0x7a] = some [0x61] := by decide +kernel
example : (charsetMap 15).isSome = true ∧ (∀ c ∈ [0x61], 0 < c ∧ Utf8Char c) := ⟨rfl, by intro c hc; simp at hc; subst hc; unfold Utf8Char; decide⟩

end Verif.Iconv
