import Verif.Fex.Props
import Verif.Fex.Reader
import Verif.Fex.SizeSpec
import Verif.Zlib.GzSize

/-! Properties of the opening of gzip files. -/

namespace Verif.Fex

open Verif.Zlib (Member IsCrc bytesOf streamOf GzHeader GzTrailer)

theorem getLe32_eq (a b c d : Byte) (t : List Byte) :
    getLe32 (a :: b :: c :: d :: t) = streamOf [a, b, c, d] := by
  have ha := a.toNat_lt
  have hb := b.toNat_lt
  have hc := c.toNat_lt
  simp only [getLe32, List.getD_cons_succ, List.getD_cons_zero, streamOf]
  rw [Nat.or_assoc, Nat.or_assoc]
  rw [← Nat.shiftLeft_add_eq_or_of_lt (a := b.toNat) (b := a.toNat) (i := 8) (by omega)]
  rw [← Nat.shiftLeft_add_eq_or_of_lt (a := c.toNat) (i := 16)
    (by simp only [Nat.shiftLeft_eq]; omega)]
  rw [← Nat.shiftLeft_add_eq_or_of_lt (a := d.toNat) (i := 24)
    (by simp only [Nat.shiftLeft_eq]; omega)]
  simp only [Nat.shiftLeft_eq]
  omega

theorem getLe32_bytes (w : Nat) (t : List Byte) : getLe32 (bytesOf 4 w ++ t) = w % 2 ^ 32 := by
  have h := Verif.Zlib.streamOf_bytesOf 4 w
  have hl := Verif.Zlib.bytesOf_length 4 w
  match hx : bytesOf 4 w, hl with
  | [a, b, c, d], _ =>
    rw [hx] at h
    simp only [List.cons_append, List.nil_append]
    rw [getLe32_eq, h]

/-- The parts of a member that come to matter here. -/
theorem member_parts {file out rest : List Byte} (h : Member file out rest) :
    [0x1f, 0x8b] <+: file ∧ 18 + rest.length ≤ file.length ∧
      ∃ before tail, GzTrailer out tail ∧ file = before ++ (tail ++ rest) := by
  obtain ⟨hdr, mid, tail, cs, rfl, hg, hb, _, ht⟩ := h
  obtain ⟨pre, hpre⟩ := Verif.Zlib.blocks_suffix hb
  obtain ⟨flg, six, extra, name, comment, crc, rfl, _, h6, _⟩ := hg
  have h8 : tail.length = 8 := by
    obtain ⟨c, _, rfl⟩ := ht
    simp [Verif.Zlib.bytesOf_length]
  refine ⟨?_, ?_, [0x1f, 0x8b, 8, flg] ++ six ++ extra ++ name ++ comment ++ crc ++ pre, tail, ht, ?_⟩
  · exact ⟨[8, flg] ++ six ++ extra ++ name ++ comment ++ crc ++ mid, by simp⟩
  · rw [← hpre]
    simp only [List.length_append, h6, h8]
    simp
    omega
  · rw [← hpre]
    simp only [List.append_assoc]

theorem openFile_gz {file : List Byte} (h18 : 18 ≤ file.length) (hm : [0x1f, 0x8b] <+: file) :
    openFile file = calcSize true file := by
  obtain ⟨s, rest, e1, e2⟩ := C207_detects file
  unfold openFile
  rw [e1]
  simp only
  rw [e2.mpr ⟨h18, hm⟩]

theorem calcSize_tail {out tail before : List Byte} (ht : GzTrailer out tail) :
    ∃ c : BitVec 32, IsCrc out c ∧ calcSize true (before ++ tail) =
      if out.length % 2 ^ 32 > 2147483647 then .error else .ok true (out.length % 2 ^ 32) c.toNat := by
  obtain ⟨c, hc, rfl⟩ := ht
  refine ⟨c, hc, ?_⟩
  have l1 := Verif.Zlib.bytesOf_length 4 c.toNat
  have l2 := Verif.Zlib.bytesOf_length 4 out.length
  have hd : (before ++ (bytesOf 4 c.toNat ++ bytesOf 4 out.length)).drop
      ((before ++ (bytesOf 4 c.toNat ++ bytesOf 4 out.length)).length - 8) =
      bytesOf 4 c.toNat ++ bytesOf 4 out.length := by
    rw [List.drop_append_of_le_length (by simp [l1, l2]), List.drop_of_length_le (by simp [l1, l2])]
    rfl
  have hd4 : (bytesOf 4 c.toNat ++ bytesOf 4 out.length).drop 4 = bytesOf 4 out.length := by
    rw [List.drop_append_of_le_length (by omega), List.drop_of_length_le (by omega)]
    rfl
  unfold calcSize
  rw [if_pos rfl, if_neg (by simp [l1, l2])]
  simp only [hd, hd4]
  have g1 := getLe32_bytes out.length []
  rw [List.append_nil] at g1
  rw [g1, getLe32_bytes, Nat.mod_eq_of_lt (show c.toNat < 2 ^ 32 from c.isLt)]

/-- C208.  A file with one member, whose content has less than 2^31 bytes, is taken for compressed, and
what `open` says is the size and the CRC of its content. -/
theorem C208_size_partial {file out : List Byte} (h : Member file out []) (hs : out.length < 2 ^ 31) :
    ∃ c : BitVec 32, IsCrc out c ∧ openFile file = .ok true out.length c.toNat := by
  obtain ⟨h1, h2, before, tail, ht, rfl⟩ := member_parts h
  obtain ⟨c, hc, e⟩ := calcSize_tail (before := before) ht
  refine ⟨c, hc, ?_⟩
  rw [openFile_gz (by simpa using h2) h1, List.append_nil, e, Nat.mod_eq_of_lt (by omega),
    if_neg (by omega)]

/-- C208.  For files with several members the size is that of the content of the last one, modulo
2^32. -/
theorem C208_last_partial {file : List Byte} {outs : List (List Byte)} (h : GzFile file outs) :
    ∃ out ∈ outs.getLast?, ∃ c : BitVec 32, IsCrc out c ∧ openFile file =
      if out.length % 2 ^ 32 > 2147483647 then .error
      else .ok true (out.length % 2 ^ 32) c.toNat := by
  have parts : 18 ≤ file.length ∧ [0x1f, 0x8b] <+: file := by
    cases h with
    | last h =>
      obtain ⟨h1, h2, _⟩ := member_parts h
      exact ⟨by omega, h1⟩
    | next h _ =>
      obtain ⟨h1, h2, _⟩ := member_parts h
      exact ⟨by omega, h1⟩
  have suffix : ∃ out ∈ outs.getLast?, ∃ before tail, GzTrailer out tail ∧
      file = before ++ tail := by
    clear parts
    induction h with
    | last h =>
      obtain ⟨_, _, before, tail, ht, e⟩ := member_parts h
      exact ⟨_, rfl, before, tail, ht, by rw [e, List.append_nil]⟩
    | next h hr ih =>
      obtain ⟨_, _, before, tail, ht, e⟩ := member_parts h
      obtain ⟨out, ho, before', tail', ht', e'⟩ := ih
      refine ⟨out, ?_, before ++ (tail ++ before'), tail', ht', ?_⟩
      · rw [List.getLast?_cons]
        rw [Option.mem_def] at ho ⊢
        rw [ho]
        rfl
      · rw [e, e']
        simp only [List.append_assoc]
  obtain ⟨out, ho, before, tail, ht, e⟩ := suffix
  obtain ⟨c, hc, e2⟩ := calcSize_tail (before := before) ht
  refine ⟨out, ho, c, hc, ?_⟩
  rw [openFile_gz parts.1 parts.2, e, e2]

/-- A member with the content `aaaa`. -/
def four : List Byte := Verif.Zlib.sampleGz ++ [75, 4, 2, 0, 0x45, 0xe5, 0x98, 0xad, 4, 0, 0, 0]

theorem four_member (rest : List Byte)
    (hg : Verif.Zlib.gunzip ⟨.plain, fun _ => 1⟩ (fun _ _ => 0) [[97, 97, 97, 97]] (four ++ rest) =
      .ok () ⟨0, 0, rest⟩)
    (hx : Verif.Zlib.expand [] (Verif.Zlib.takeStream (fun _ _ => 0)
      ([75, 4, 2, 0, 0x45, 0xe5, 0x98, 0xad, 4, 0, 0, 0] ++ rest)).1 = ([97, 97, 97, 97], true)) :
    Member (four ++ rest) [97, 97, 97, 97] rest := by
  obtain ⟨r, e, h⟩ := Verif.Zlib.C206_sound _ _ hg (by
    intro hdr mid cs r e hgz hb
    unfold four at e
    rw [List.append_assoc] at e
    obtain rfl : Verif.Zlib.sampleGz = hdr :=
      Verif.Zlib.C204_unique Verif.Zlib.sampleGz_head hgz e
    obtain rfl := List.append_cancel_left e
    rw [← (Verif.Zlib.C203_stream (fun _ _ => 0) _ hb).1]
    exact hx)
  simp only [Verif.Zlib.Bits.mk.injEq, true_and] at e
  rw [← e] at h
  exact h

theorem four_alone : Member four [97, 97, 97, 97] [] := by
  have := four_member [] (by decide +kernel) (by decide +kernel)
  rwa [List.append_nil] at this

theorem four_twice : GzFile (four ++ four) [[97, 97, 97, 97], [97, 97, 97, 97]] :=
  .next (four_member four (by decide +kernel) (by decide +kernel)) (.last four_alone)

/-- C208, the claim for all gzip files is false: for two members the size of the second one only is
given. -/
theorem C208_size_false :
    ¬ ∀ (file : List Byte) (outs : List (List Byte)), GzFile file outs →
      outs.flatten.length < 2 ^ 31 →
      ∃ c, openFile file = .ok true outs.flatten.length c := by
  intro h
  obtain ⟨c, hc⟩ := h _ _ four_twice (by decide)
  have : openFile (four ++ four) = .ok true 4 0xad98e545 := by decide +kernel
  rw [this] at hc
  simp at hc

example : ∃ c : BitVec 32, IsCrc [97, 97, 97, 97] c ∧ openFile four = .ok true 4 c.toNat :=
  C208_size_partial four_alone (by decide)

end Verif.Fex
