import Verif.Iconv.Utf7Write
import Verif.Iconv.OneByteLemmas
import Verif.Iconv.Converter

namespace Verif.Iconv
open Verif Spec

/-! ## UTF-8 -/

theorem utf8Enc_eq {c : Nat} (h : Utf8Char c) : utf8Enc c = some (Spec.utf8 c) := by
  unfold Utf8Char at h
  unfold utf8Enc utf8Count Spec.utf8
  split
  · rename_i h1; rw [Option.map_some, enc1 _ h1]; rfl
  split
  · rename_i h1; rw [Option.map_some, enc2 _ h1]; rfl
  split
  · rename_i h1; rw [Option.map_some, enc3 _ h1]; rfl
  split
  · rename_i h1; rw [Option.map_some, enc4 _ h1]; rfl
  split
  · rename_i h1; rw [Option.map_some, enc5 _ h1]; rfl
  · rw [if_pos (by omega), Option.map_some, enc6 _ (by omega)]; rfl

theorem utf8Enc_some {c : Nat} {w : Str} (h : utf8Enc c = some w) : Utf8Char c ∧ w = Spec.utf8 c := by
  have hc : Utf8Char c := by
    unfold Utf8Char
    unfold utf8Enc utf8Count at h
    by_cases h1 : c < 2 ^ 31
    · exact h1
    · rw [if_neg (by omega), if_neg (by omega), if_neg (by omega), if_neg (by omega), if_neg (by omega), if_neg (by omega)] at h
      exact absurd h (by simp)
  rw [utf8Enc_eq hc] at h
  exact ⟨hc, (Option.some.inj h).symm⟩

theorem utf8_ne (c : Nat) : Spec.utf8 c ≠ [] := by
  unfold Spec.utf8
  split
  · simp
  split
  · simp
  split
  · simp
  split
  · simp
  split <;> simp

theorem utf8Wctomb_eq {c : Nat} (h : Utf8Char c) (n : Nat) : utf8Wctomb c n = if n < (Spec.utf8 c).length then .tooSmall else .bytes (Spec.utf8 c) := by
  have h1 := utf8Enc_eq h
  unfold utf8Enc at h1
  unfold utf8Wctomb
  cases hk : utf8Count c with
  | none => rw [hk] at h1; simp at h1
  | some k =>
    rw [hk] at h1
    have h2 : utf8Bytes k c = Spec.utf8 c := Option.some.inj h1
    have h3 : k = (Spec.utf8 c).length := by
      unfold utf8Count at hk
      unfold Spec.utf8
      split at hk
      · rw [if_pos ‹_›]; simpa using hk.symm
      rw [if_neg ‹_›]
      split at hk
      · rw [if_pos ‹_›]; simpa using hk.symm
      rw [if_neg ‹_›]
      split at hk
      · rw [if_pos ‹_›]; simpa using hk.symm
      rw [if_neg ‹_›]
      split at hk
      · rw [if_pos ‹_›]; simpa using hk.symm
      rw [if_neg ‹_›]
      split at hk
      · rw [if_pos ‹_›]; simpa using hk.symm
      rw [if_neg ‹_›]
      split at hk
      · simpa using hk.symm
      · exact absurd hk (by simp)
    simp only [h2, ← h3]

/-! ## Reading up to something -/

/-- The bytes are read as the characters up to the rest. -/
inductive ReadsTo (i : Codec) : Nat → Str → List Nat → Nat → Str → Prop
  | stop (st : Nat) (rest : Str) : ReadsTo i st rest [] st rest
  | char {st bs c n st' cs se rest} : bs ≠ [] → i.mbtowc st bs = (.char c (n + 1), st') → n + 1 ≤ bs.length →
      ReadsTo i st' (bs.drop (n + 1)) cs se rest → ReadsTo i st bs (c :: cs) se rest

theorem ReadsTo.reads {i : Codec} {st : Nat} {bs : Str} {cs : List Nat} {se : Nat} {rest : Str} (h : ReadsTo i st bs cs se rest) (hr : rest = []) : Reads i st bs cs se := by
  induction h with
  | stop st rest => subst hr; exact .nil st
  | char h1 h2 h3 _ ih => exact .char h1 h2 h3 (ih hr)

theorem utf8_readsTo (cs : List Nat) (h : ∀ c ∈ cs, Utf8Char c) (rest : Str) (st : Nat) : ReadsTo utf8 st (cs.flatMap Spec.utf8 ++ rest) cs st rest := by
  induction cs with
  | nil => exact .stop st rest
  | cons c cs ih =>
    have hc := h c (by simp)
    have hne := utf8_ne c
    obtain ⟨_, h1⟩ := enc_dec (utf8Enc_eq hc) (cs.flatMap Spec.utf8 ++ rest)
    obtain ⟨n, hn⟩ : ∃ n, (Spec.utf8 c).length = n + 1 := ⟨(Spec.utf8 c).length - 1, by have := List.length_pos_iff.2 hne; omega⟩
    rw [List.flatMap_cons, List.append_assoc]
    refine .char (n := n) (st' := st) (by simp [hne]) ?_ (by rw [List.length_append]; omega) ?_
    · show (utf8Mbtowc _, st) = _
      rw [h1, hn]
    · rw [List.drop_left' hn]
      exact ih (fun d hd => h d (by simp [hd]))

theorem one_readsTo (t : OneByte) : ∀ (bs : Str) (cs : List Nat), bs.map (fun b => t.mbtowc b.toNat) = cs.map some → ∀ (rest : Str) (st : Nat),
    ReadsTo t.codec st (bs ++ rest) cs st rest
  | [], [], _, rest, st => .stop st rest
  | [], _ :: _, h, _, _ => by simp at h
  | _ :: _, [], h, _, _ => by simp at h
  | b :: bs, c :: cs, h, rest, st => by
    simp only [List.map_cons, List.cons.injEq] at h
    refine .char (n := 0) (st' := st) (by simp) ?_ (by simp) (one_readsTo t bs cs h.2 rest st)
    simp [OneByte.codec, h.1]

/-! ## UCS-2 -/

/-- The state of the decoder. -/
def order (little : Bool) : Nat := if little then 1 else 0

theorem byte_div {n : Nat} (h : n < 65536) : (Spec.byte (n / 256)).toNat = n / 256 := ofNat_toNat (by omega)
theorem byte_mod (n : Nat) : (Spec.byte (n % 256)).toNat = n % 256 := ofNat_toNat (by omega)

theorem two_read {c : Nat} (hc : c < 65536) (little : Bool) (orig count : Nat) (bs : Str) :
    ucs2Loop orig (order little) count (two little c ++ bs) =
      if c = 0xfeff then ucs2Loop orig (order little) (count + 2) bs
      else if c = 0xfffe then ucs2Loop orig (order !little) (count + 2) bs
      else if c ≥ 0xd800 ∧ c < 0xe000 then (.ilseq, orig)
      else (.char c (count + 2), order little) := by
  cases little with
  | false =>
    simp only [two, Bool.false_eq_true, if_false, List.cons_append, List.nil_append, ucs2Loop, order, ne_eq, not_true, byte_div hc, byte_mod,
      Nat.shiftLeft_eq, show c / 256 * 2 ^ 8 + c % 256 = c by omega, Bool.not_false, if_true, Nat.zero_xor]
  | true =>
    simp only [two, if_true, List.cons_append, List.nil_append, ucs2Loop, order, ne_eq, Nat.one_ne_zero, not_false_iff, byte_div hc, byte_mod,
      Nat.shiftLeft_eq, show c % 256 + c / 256 * 2 ^ 8 = c by omega, Bool.not_true, Bool.false_eq_true, if_false, Nat.xor_self]

theorem two_turn (little : Bool) : two (!little) 0xfeff = two little 0xfffe := by cases little <;> rfl

theorem two_length (little : Bool) (c : Nat) : (two little c).length = 2 := by cases little <;> rfl

/-- How reading a text in UCS-2 starts. -/
theorem ucs2_start {little : Bool} {cs : List Nat} {bs : Str} (h : Ucs2 little cs bs) (orig : Nat) : ∀ count,
    (cs = [] ∧ ∃ st, ucs2Loop orig (order little) count bs = (.few (count + bs.length), st)) ∨
    ∃ c cs' n little', cs = c :: cs' ∧ n + 1 ≤ bs.length ∧ Ucs2 little' cs' (bs.drop (n + 1)) ∧
      ucs2Loop orig (order little) count bs = (.char c (count + (n + 1)), order little') := by
  induction h with
  | nil little => intro count; exact .inl ⟨rfl, _, rfl⟩
  | @char little c cs bs hc h _ =>
    intro count
    obtain ⟨h1, h2, h3, h4⟩ := hc
    refine .inr ⟨c, cs, 1, little, rfl, by rw [List.length_append, two_length]; omega, ?_, ?_⟩
    · rw [List.drop_left' (two_length _ _)]; exact h
    · rw [two_read h1, if_neg h3, if_neg h4, if_neg (by omega)]
  | @mark little cs bs _ ih =>
    intro count
    rw [two_read (by decide), if_pos rfl]
    rcases ih (count + 2) with ⟨h1, st, h2⟩ | ⟨c, cs', n, l', h1, h2, h3, h4⟩
    · refine .inl ⟨h1, st, ?_⟩
      rw [h2, List.length_append, two_length, Nat.add_assoc]
    · refine .inr ⟨c, cs', n + 2, l', h1, by rw [List.length_append, two_length]; omega, ?_, ?_⟩
      · rw [show n + 2 + 1 = 2 + (n + 1) by omega, ← List.drop_drop, List.drop_left' (two_length _ _)]; exact h3
      · rw [h4]; congr 2; omega
  | @turn little cs bs _ ih =>
    intro count
    rw [two_turn, two_read (by decide), if_neg (by decide), if_pos rfl]
    rcases ih (count + 2) with ⟨h1, st, h2⟩ | ⟨c, cs', n, l', h1, h2, h3, h4⟩
    · refine .inl ⟨h1, st, ?_⟩
      rw [h2, List.length_append, two_length, Nat.add_assoc]
    · refine .inr ⟨c, cs', n + 2, l', h1, by rw [List.length_append, two_length]; omega, ?_, ?_⟩
      · rw [show n + 2 + 1 = 2 + (n + 1) by omega, ← List.drop_drop, List.drop_left' (two_length _ _)]; exact h3
      · rw [h4]; congr 2; omega

theorem ucs2_reads : ∀ (cs : List Nat) {little : Bool} {bs : Str}, Ucs2 little cs bs → ∃ se, Reads ucs2 (order little) bs cs se
  | [], little, bs, h => by
    rcases ucs2_start h (order little) 0 with ⟨_, st, h2⟩ | ⟨c, cs', n, l', h1, _⟩
    · match bs, h2 with
      | [], _ => exact ⟨_, .nil _⟩
      | b :: bs, h2 =>
        refine ⟨st, .skip (n := bs.length) (st' := st) (by simp) ?_ (by simp) ?_⟩
        · show ucs2Loop _ _ 0 _ = _
          rw [h2, Nat.zero_add]; rfl
        · rw [List.drop_eq_nil_of_le (by simp)]; exact .nil _
    · exact absurd h1 (by simp)
  | c :: cs, little, bs, h => by
    rcases ucs2_start h (order little) 0 with ⟨h1, _⟩ | ⟨c', cs', n, l', h1, h2, h3, h4⟩
    · exact absurd h1 (by simp)
    · injection h1 with h1 h5
      subst h1 h5
      obtain ⟨se, hse⟩ := ucs2_reads cs h3
      refine ⟨se, .char (n := n) (st' := order l') (by intro h0; subst h0; simp at h2) ?_ h2 hse⟩
      show ucs2Loop _ _ 0 _ = _
      rw [h4, Nat.zero_add]

/-! ## All of them -/

/-- The kind of an encoding. -/
def Encoding.kind : Encoding → Kind
  | .one t => .table t.mbtowc
  | .utf8 => .utf8
  | .ucs2 => .ucs2
  | .utf7 => .utf7

/-- The tables of the encoding have been checked. -/
def Encoding.Ok : Encoding → Prop
  | .one t => t ∈ oneByteSets
  | _ => True

theorem reads_of_text {e : Encoding} {cs : List Nat} {bs : Str} (h : Text e.kind cs bs) : ∃ se, Reads e.codec 0 bs cs se := by
  cases e with
  | one t =>
    have := one_readsTo t bs cs h [] 0
    rw [List.append_nil] at this
    exact ⟨0, this.reads rfl⟩
  | utf8 =>
    obtain ⟨h1, rfl⟩ := h
    have := utf8_readsTo cs h1 [] 0
    rw [List.append_nil] at this
    exact ⟨0, this.reads rfl⟩
  | ucs2 => exact ucs2_reads cs (little := false) h
  | utf7 => exact (utf7_start h).reads

theorem one_writes {t : OneByte} (ht : t ∈ oneByteSets) (cs : List Nat) (h : ∀ c ∈ cs, Has (.table t.mbtowc) c) (st : Nat) :
    ∃ w, Writes t.codec st cs w st ∧ w.map (fun b => t.mbtowc b.toNat) = cs.map some := by
  induction cs with
  | nil => exact ⟨[], .nil _, rfl⟩
  | cons c cs ih =>
    obtain ⟨w, h1, h2⟩ := ih (fun d hd => h d (by simp [hd]))
    obtain ⟨b, hb, hbc⟩ := h c (by simp)
    have hw := (OneByte.inverse (oneByteSets_ok t ht) b c).2 ⟨hb, hbc⟩
    refine ⟨[UInt8.ofNat b] ++ w, .cons (by simp) ?_ h1, ?_⟩
    · intro n hn
      simp only [OneByte.codec, hw]
      rw [if_neg (by simp; omega)]
    · simp only [List.cons_append, List.nil_append, List.map_cons, h2, ofNat_toNat hb, hbc]

theorem writes_of_has {e : Encoding} (he : e.Ok) {cs : List Nat} (h : ∀ c ∈ cs, Has e.kind c) : ∃ w se, Writes e.codec 0 cs w se ∧ Output e.kind cs w := by
  cases e with
  | one t =>
    obtain ⟨w, h1, h2⟩ := one_writes he cs h 0
    exact ⟨w, 0, h1, h2⟩
  | utf8 =>
    refine ⟨cs.flatMap Spec.utf8, 0, ?_, h, rfl⟩
    induction cs with
    | nil => exact .nil _
    | cons c cs ih =>
      rw [List.flatMap_cons]
      refine .cons (utf8_ne c) ?_ (ih (fun d hd => h d (by simp [hd])))
      intro n _
      show (utf8Wctomb c n, 0) = _
      rw [utf8Wctomb_eq (h c (by simp))]
      split <;> rfl
  | ucs2 =>
    refine ⟨cs.flatMap (two false), 0, ?_, rfl⟩
    induction cs with
    | nil => exact .nil _
    | cons c cs ih =>
      rw [List.flatMap_cons]
      refine .cons (by simp [two]) ?_ (ih (fun d hd => h d (by simp [hd])))
      intro n _
      obtain ⟨h1, h2, h3, h4⟩ := h c (by simp)
      show (ucs2Wctomb c n, 0) = _
      rw [ucs2Wctomb, if_pos ⟨h1, h4, by omega⟩]
      have e2 : UInt8.ofNat (c >>> 8) = Spec.byte (c / 256) := by rw [Nat.shiftRight_eq_div_pow]; rfl
      have e3 : UInt8.ofNat c = Spec.byte (c % 256) := by
        apply byte_ext
        rw [byte_mod]
        simp
      rw [e2, e3]
      simp only [two_length]
      by_cases hn : n < 2
      · rw [if_pos hn, if_neg (by omega)]
      · rw [if_neg hn, if_pos (by omega)]; rfl
  | utf7 =>
    obtain ⟨w, se, r, h1, h2, h3⟩ := (utf7_write cs h).1
    refine ⟨w, se, h1, r, ?_, h3⟩
    unfold utf7Reset at h2
    split at h2
    · unfold basePending at h2
      split at h2
      · cases hb : base64Char (dataOf se) with
        | none => rw [hb] at h2; simp at h2
        | some d =>
          rw [hb] at h2
          simp only [Option.map_some, Option.some.injEq] at h2
          refine .inr (.inr ⟨d, ?_, h2.symm⟩)
          have hlt : dataOf se < 64 := by
            unfold base64Char at hb
            repeat' split at hb
            all_goals first | omega | exact absurd hb (by simp)
          rw [base64Char_digit hlt] at hb
          injection hb with hb
          rw [← hb, digit, List.getD_eq_getElem?_getD, List.getElem?_eq_getElem (by show _ < 64; exact hlt)]
          exact List.getElem_mem _
      · simp only [Option.map_some, Option.some.injEq] at h2
        exact .inr (.inl h2.symm)
    · exact .inl (Option.some.inj h2).symm

theorem charsetMap_ok {a : Nat} {e : Encoding} (h : charsetMap a = some e) : e.Ok := by
  unfold charsetMap at h
  split at h <;> first | (injection h with h; subst h; simp [Encoding.Ok, oneByteSets]; done) | (simp at h; done)

/-- Conversion up to a place. -/
theorem loop_stop {i o : Codec} (op : Options) (size : Nat) {is ie : Nat} {bs rest : Str} {cs : List Nat} (hr : ReadsTo i is bs cs ie rest) :
    ∀ {os oe : Nat} {w : Str} (_ : Writes o os cs w oe) (f consumed : Nat) (out : Str), bs.length ≤ f → out.length + w.length < size →
    ∃ f' k, rest.length ≤ f' ∧ k + rest.length = bs.length ∧
      convertLoop i o op size f bs consumed out is os = convertLoop i o op size f' rest (consumed + k) (out ++ w) ie oe := by
  induction hr with
  | stop st rest =>
    intro os oe w hw f consumed out hf _
    cases hw
    exact ⟨f, 0, hf, by simp, by simp⟩
  | @char st bs c n st' cs se rest hne hm hn hr ih =>
    intro os oe w hw f consumed out hf hsz
    have hpos : 0 < bs.length := List.length_pos_iff.2 hne
    obtain ⟨f, rfl⟩ : ∃ g, f = g + 1 := ⟨f - 1, by omega⟩
    cases hw with
    | @cons _ _ b st2 _ w' _ hb hwc hw' =>
      simp only [List.length_append] at hsz
      obtain ⟨f', k, h1, h2, h3⟩ := ih hw' f (consumed + (n + 1)) (out ++ b) (by simp only [List.length_drop]; omega) (by simp only [List.length_append]; omega)
      simp only [List.length_drop] at h2
      refine ⟨f', n + 1 + k, h1, by omega, ?_⟩
      rw [convertLoop, if_neg (by intro h; rcases h with h | h; exact hne h; omega), hm]
      simp only [hwc (size - out.length) (by omega)]
      rw [if_neg (by omega)]
      simp only [h3, Nat.add_assoc, List.append_assoc]

theorem utf8_stop {rest : Str} (hne : rest ≠ []) (h : ∀ c, Utf8Char c → ¬ Spec.utf8 c <+: rest) : utf8Mbtowc rest = .ilseq ∨ utf8Mbtowc rest = .few 0 := by
  cases hm : utf8Mbtowc rest with
  | char c n =>
    obtain ⟨w, r, h1, _, h3⟩ := dec_enc hm
    obtain ⟨h4, h5⟩ := utf8Enc_some h3
    exact absurd ⟨r, by rw [← h5, h1]⟩ (h c h4)
  | ilseq => exact .inl rfl
  | few n =>
    refine .inr ?_
    unfold utf8Mbtowc at hm
    split at hm
    · exact absurd hm (by simp)
    · simp only at hm
      repeat' split at hm
      all_goals first | (rw [← hm]; done) | (simp at hm; done)
  | abort =>
    exfalso
    unfold utf8Mbtowc at hm
    split at hm
    · exact hne rfl
    · simp only at hm
      repeat' split at hm
      all_goals exact absurd hm (by simp)

theorem Writes.unique {o : Codec} {st : Nat} {cs : List Nat} {w : Str} {se : Nat} (h : Writes o st cs w se) : ∀ {w' se'}, Writes o st cs w' se' → w = w' ∧ se = se' := by
  induction h with
  | nil st => intro w' se' h'; cases h'; exact ⟨rfl, rfl⟩
  | @cons st c b st1 cs w se hb hwc _ ih =>
    intro w' se' h'
    cases h' with
    | @cons _ _ b2 st2 _ w2 _ hb2 hwc2 h2 =>
      have e1 := hwc (b.length + b2.length) (by have := List.length_pos_iff.2 hb; omega)
      have e2 := hwc2 (b.length + b2.length) (by have := List.length_pos_iff.2 hb; omega)
      rw [if_neg (by omega)] at e1 e2
      rw [e1] at e2
      simp only [Prod.mk.injEq, Enc.bytes.injEq] at e2
      obtain ⟨rfl, rfl⟩ := e2
      obtain ⟨rfl, rfl⟩ := ih h2
      exact ⟨rfl, rfl⟩

end Verif.Iconv
