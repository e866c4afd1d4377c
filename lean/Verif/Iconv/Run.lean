import Verif.Iconv.Model

/-!
Reading and writing a text character by character, as `tiniconv_convert` does, without errors.
-/
namespace Verif.Iconv
open Verif

/-- The bytes are read as the characters from one state to another. -/
inductive Reads (i : Codec) : Nat → Str → List Nat → Nat → Prop
  | nil (st : Nat) : Reads i st [] [] st
  | char {st bs c n st' cs se} : bs ≠ [] → i.mbtowc st bs = (.char c (n + 1), st') → n + 1 ≤ bs.length →
      Reads i st' (bs.drop (n + 1)) cs se → Reads i st bs (c :: cs) se
  | skip {st bs n st' cs se} : bs ≠ [] → i.mbtowc st bs = (.few (n + 1), st') → n + 1 ≤ bs.length →
      Reads i st' (bs.drop (n + 1)) cs se → Reads i st bs cs se

/-- The characters are written as the bytes from one state to another; with too little room there is a character that is
not written. -/
inductive Writes (o : Codec) : Nat → List Nat → Str → Nat → Prop
  | nil (st : Nat) : Writes o st [] [] st
  | cons {st c b st' cs w se} : b ≠ [] → (∀ n, 0 < n → o.wctomb st c n = if n < b.length then (.tooSmall, st) else (.bytes b, st')) →
      Writes o st' cs w se → Writes o st (c :: cs) (b ++ w) se

theorem Writes.len {o : Codec} {st : Nat} {cs : List Nat} {w : Str} {se : Nat} (h : Writes o st cs w se) : w = [] → cs = [] := by
  cases h with
  | nil => intro; rfl
  | cons hb _ _ => intro h; simp [hb] at h

/-- The conversion of a text, with any room: some of it is done, and the states and positions are such that the rest can
be done later. -/
theorem loop_run {i o : Codec} (op : Options) (size : Nat) {is ie : Nat} {bs : Str} {cs : List Nat} (hr : Reads i is bs cs ie) :
    ∀ {os oe : Nat} {w : Str} (_ : Writes o os cs w oe) (f consumed : Nat) (out : Str), bs.length ≤ f → out.length ≤ size →
    ∃ (code : Code) (k is' os' : Nat) (cs1 cs2 : List Nat) (w1 w2 : Str),
      convertLoop i o op size f bs consumed out is os = ⟨code, consumed + k, out ++ w1, is', os'⟩ ∧
      cs = cs1 ++ cs2 ∧ w = w1 ++ w2 ∧ k ≤ bs.length ∧
      Writes o os cs1 w1 os' ∧ Reads i is' (bs.drop k) cs2 ie ∧ Writes o os' cs2 w2 oe ∧
      out.length + w1.length ≤ size ∧ (code = .ok ∨ code = .outTooSmall) ∧
      (out.length + w.length ≤ size → code = .ok ∧ cs2 = []) ∧ (out.length + w.length < size → k = bs.length) ∧
      (code = .ok → k < bs.length → out.length + w1.length = size) ∧
      (code = .outTooSmall → out.length + w1.length < size ∧ ∃ c cs', cs2 = c :: cs') := by
  induction hr with
  | nil st =>
    intro os oe w hw f consumed out hf hsz
    cases hw
    refine ⟨.ok, 0, st, os, [], [], [], [], ?_, rfl, rfl, by simp, .nil _, .nil _, .nil _, by simpa using hsz, .inl rfl, fun _ => ⟨rfl, rfl⟩, fun _ => rfl,
      fun _ h => by simp at h, fun h => by simp at h⟩
    cases f <;> simp [convertLoop]
  | @char st bs c n st' cs se hne hm hn hr ih =>
    intro os oe w hw f consumed out hf hsz
    have hpos : 0 < bs.length := List.length_pos_iff.2 hne
    obtain ⟨f, rfl⟩ : ∃ g, f = g + 1 := ⟨f - 1, by omega⟩
    have hrd : Reads i st bs (c :: cs) se := .char hne hm hn hr
    rw [convertLoop]
    by_cases hfull : out.length < size
    · rw [if_neg (by simp [hne, hfull]), hm]
      have hw0 := hw
      cases hw with
      | @cons _ _ b st2 _ w' _ hb hwc hw' =>
        simp only [hwc (size - out.length) (by omega)]
        by_cases hroom : size - out.length < b.length
        · rw [if_pos hroom]
          refine ⟨.outTooSmall, 0, st, os, [], c :: cs, [], b ++ w', by simp, rfl, rfl, by simp, .nil _, by simpa using hrd, hw0, by simpa using hsz, .inr rfl,
            fun h => ?_, fun h => ?_, fun h => by simp at h, fun _ => ⟨by simpa using hfull, c, cs, rfl⟩⟩
          · simp only [List.length_append] at h; omega
          · simp only [List.length_append] at h; omega
        · rw [if_neg hroom]
          obtain ⟨code, k, is', os', cs1, cs2, w1, w2, e1, e2, e3, e4, e5, e6, e7, e8, e9, e10, e11, e12, e13⟩ :=
            ih hw' f (consumed + (n + 1)) (out ++ b) (by simp only [List.length_drop]; omega) (by simp only [List.length_append]; omega)
          simp only [List.length_append, List.length_drop] at e4 e8 e10 e11 e12 e13
          refine ⟨code, n + 1 + k, is', os', c :: cs1, cs2, b ++ w1, w2, ?_, by rw [e2]; rfl, by rw [e3, List.append_assoc], by omega, .cons hb hwc e5, ?_, e7,
            by simp only [List.length_append]; omega, e9, ?_, ?_, ?_, ?_⟩
          · simp only [e1, Nat.add_assoc, List.append_assoc]
          · rw [← List.drop_drop]; exact e6
          · intro h; simp only [List.length_append] at h; exact e10 (by omega)
          · intro h; simp only [List.length_append] at h; have := e11 (by omega); omega
          · intro h h2; simp only [List.length_append]; have := e12 h (by omega); omega
          · intro h; simp only [List.length_append]; have := e13 h; exact ⟨by omega, this.2⟩
    · rw [if_pos (.inr hfull)]
      refine ⟨.ok, 0, st, os, [], c :: cs, [], w, by simp, rfl, rfl, by simp, .nil _, by simpa using hrd, hw, by simpa using hsz, .inl rfl, fun h => ?_,
        fun h => by omega, fun _ _ => by simp; omega, fun h => by simp at h⟩
      cases hw with
      | cons hb _ _ =>
        have := List.length_pos_iff.2 hb
        simp only [List.length_append] at h; omega
  | @skip st bs n st' cs se hne hm hn hr ih =>
    intro os oe w hw f consumed out hf hsz
    have hpos : 0 < bs.length := List.length_pos_iff.2 hne
    obtain ⟨f, rfl⟩ : ∃ g, f = g + 1 := ⟨f - 1, by omega⟩
    have hrd : Reads i st bs cs se := .skip hne hm hn hr
    rw [convertLoop]
    by_cases hfull : out.length < size
    · rw [if_neg (by simp [hne, hfull]), hm]
      obtain ⟨code, k, is', os', cs1, cs2, w1, w2, e1, e2, e3, e4, e5, e6, e7, e8, e9, e10, e11, e12, e13⟩ :=
        ih hw f (consumed + (n + 1)) out (by simp only [List.length_drop]; omega) (by omega)
      simp only [List.length_drop] at e4 e11 e12
      refine ⟨code, n + 1 + k, is', os', cs1, cs2, w1, w2, ?_, e2, e3, by omega, e5, ?_, e7, e8, e9, e10, fun h => by have := e11 h; omega,
        fun h h2 => e12 h (by omega), e13⟩
      · simp only [e1, Nat.add_assoc]
      · rw [← List.drop_drop]; exact e6
    · rw [if_pos (.inr hfull)]
      refine ⟨.ok, 0, st, os, [], cs, [], w, by simp, rfl, rfl, by simp, .nil _, by simpa using hrd, hw, by simpa using hsz, .inl rfl, fun h => ?_,
        fun h => by omega, fun _ _ => by simp; omega, fun h => by simp at h⟩
      exact ⟨rfl, hw.len (List.length_eq_zero_iff.1 (by omega))⟩

end Verif.Iconv
