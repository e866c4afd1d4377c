import Verif.Iconv.Codecs

/-!
No call of `abort()` and no access out of bounds, whatever the input.
-/
namespace Verif.Iconv
open Verif Spec

/-- A decoder that stays within the bytes ahead, while its state is among some. -/
structure SafeIn (i : Codec) (S : Nat → Prop) : Prop where
  zero : S 0
  step : ∀ st bs, S st → bs ≠ [] → (i.mbtowc st bs).1 ≠ .abort ∧ S (i.mbtowc st bs).2 ∧
    (∀ c n, (i.mbtowc st bs).1 = .char c n → 0 < n ∧ n ≤ bs.length) ∧ (∀ n, (i.mbtowc st bs).1 = .few n → n ≤ bs.length)

/-- An encoder that stays within the room. -/
structure SafeOut (o : Codec) (S : Nat → Prop) : Prop where
  zero : S 0
  step : ∀ st c n, S st → 0 < n → (o.wctomb st c n).1 ≠ .abort ∧ S (o.wctomb st c n).2 ∧ ∀ b, (o.wctomb st c n).1 = .bytes b → b.length ≤ n

/-- The loop is safe. -/
theorem loop_safe {i o : Codec} {S T : Nat → Prop} (hi : SafeIn i S) (ho : SafeOut o T) (op : Options) (size : Nat) :
    ∀ (f : Nat) (bs : Str) (k : Nat) (out : Str) (is os : Nat), bs.length ≤ f → S is → T os → out.length ≤ size →
      let r := convertLoop i o op size f bs k out is os
      r.code ≠ .abort ∧ r.consumed ≤ k + bs.length ∧ r.out.length ≤ size ∧ S r.istate ∧ T r.ostate ∧ out <+: r.out ∧
        (r.code = .ok → r.consumed = k + bs.length ∨ r.out.length = size) := by
  intro f
  induction f with
  | zero =>
    intro bs k out is os hf hS hT hsz
    have : bs = [] := List.length_eq_zero_iff.1 (by omega)
    subst this
    exact ⟨by simp [convertLoop], by simp [convertLoop], by simpa [convertLoop] using hsz, hS, hT, List.prefix_refl _, fun _ => .inl (by simp [convertLoop])⟩
  | succ f ih =>
    intro bs k out is os hf hS hT hsz
    rw [convertLoop]
    by_cases hend : bs = [] ∨ ¬ out.length < size
    · rw [if_pos hend]
      refine ⟨by simp, by simp, hsz, hS, hT, List.prefix_refl _, fun _ => ?_⟩
      rcases hend with h | h
      · left; simp [h]
      · right; show out.length = size; omega
    · rw [if_neg hend]
      have hne : bs ≠ [] := fun h => hend (.inl h)
      have hlt : out.length < size := Decidable.not_not.1 (fun h => hend (.inr h))
      have hpos := List.length_pos_iff.2 hne
      have hstep := hi.step is bs hS hne
      rcases hm : i.mbtowc is bs with ⟨d, is1⟩
      rw [hm] at hstep
      obtain ⟨h1, h2, h3, h4⟩ := hstep
      have go : ∀ (n : Nat) (out' : Str) (is' os' : Nat), 0 < n → n ≤ bs.length → S is' → T os' → out'.length ≤ size → out <+: out' →
          let r := convertLoop i o op size f (bs.drop n) (k + n) out' is' os'
          r.code ≠ .abort ∧ r.consumed ≤ k + bs.length ∧ r.out.length ≤ size ∧ S r.istate ∧ T r.ostate ∧ out <+: r.out ∧
            (r.code = .ok → r.consumed = k + bs.length ∨ r.out.length = size) := by
        intro n out' is' os' hn0 hn hS' hT' hsz' hp
        obtain ⟨a1, a2, a3, a4, a5, a6, a7⟩ := ih (bs.drop n) (k + n) out' is' os' (by rw [List.length_drop]; omega) hS' hT' hsz'
        rw [List.length_drop, show k + n + (bs.length - n) = k + bs.length by omega] at a2 a7
        exact ⟨a1, a2, a3, a4, a5, hp.trans a6, a7⟩
      cases d with
      | abort => exact absurd rfl h1
      | ilseq =>
        simp only
        split
        · exact go 1 out 0 os (by decide) hpos hi.zero hT hsz (List.prefix_refl _)
        · exact ⟨by simp, by simp, hsz, h2, hT, List.prefix_refl _, fun h => by simp at h⟩
      | few n =>
        cases n with
        | zero => exact ⟨by simp, by simp, hsz, h2, hT, List.prefix_refl _, fun h => by simp at h⟩
        | succ n => exact go (n + 1) out is1 os (by omega) (h4 _ rfl) h2 hT hsz (List.prefix_refl _)
      | char c n =>
        obtain ⟨hn0, hn⟩ := h3 c n rfl
        have hostep := ho.step os c (size - out.length) hT (by omega)
        simp only
        rcases hw : o.wctomb os c (size - out.length) with ⟨e, os1⟩
        rw [hw] at hostep
        obtain ⟨g1, g2, g3⟩ := hostep
        cases e with
        | abort => exact absurd rfl g1
        | iluni =>
          simp only
          split
          · exact go n (out ++ [op.char]) is1 0 hn0 hn h2 ho.zero (by simp; omega) (List.prefix_append _ _)
          · exact ⟨by simp, by simp, hsz, hS, g2, List.prefix_refl _, fun h => by simp at h⟩
        | tooSmall => exact ⟨by simp, by simp, hsz, hS, g2, List.prefix_refl _, fun h => by simp at h⟩
        | bytes b =>
          have := g3 b rfl
          exact go n (out ++ b) is1 os1 hn0 hn h2 g2 (by rw [List.length_append]; omega) (List.prefix_append _ _)

/-! ## One byte, UTF-8, UCS-2 -/

theorem one_safeIn (t : OneByte) : SafeIn t.codec (fun _ => True) := by
  refine ⟨trivial, fun st bs _ hne => ?_⟩
  cases bs with
  | nil => exact absurd rfl hne
  | cons b bs =>
    simp only [OneByte.codec]
    cases t.mbtowc b.toNat with
    | none => simp
    | some c => refine ⟨by simp, trivial, fun c n h => ?_, by simp⟩; simp at h; simp; omega

theorem one_safeOut (t : OneByte) : SafeOut t.codec (fun _ => True) := by
  refine ⟨trivial, fun st c n _ hn => ?_⟩
  simp only [OneByte.codec]
  cases t.wctomb c with
  | none => simp
  | some b => refine ⟨by simp, trivial, fun b h => ?_⟩; simp at h; subst h; simp; omega

theorem utf8_safeIn : SafeIn utf8 (fun _ => True) := by
  refine ⟨trivial, fun st bs _ hne => ?_⟩
  show utf8Mbtowc bs ≠ .abort ∧ True ∧ (∀ c n, utf8Mbtowc bs = .char c n → _) ∧ (∀ n, utf8Mbtowc bs = .few n → _)
  refine ⟨?_, trivial, ?_, ?_⟩
  · cases bs with
    | nil => exact absurd rfl hne
    | cons b bs =>
      rw [utf8Mbtowc.eq_def]
      simp only
      repeat' split
      all_goals simp
  · intro c n h
    obtain ⟨w, rest, h1, h2, h3⟩ := dec_enc h
    have h4 := (enc_dec h3 []).1
    have := List.length_pos_iff.2 h4
    rw [h1, List.length_append]
    omega
  · intro n h
    have h0 : n = 0 := by
      cases bs with
      | nil => exact absurd rfl hne
      | cons b bs =>
        rw [utf8Mbtowc.eq_def] at h
        simp only at h
        repeat' split at h
        all_goals first | (simp at h; done) | (simp at h; omega)
    omega

theorem utf8_safeOut : SafeOut utf8 (fun _ => True) := by
  refine ⟨trivial, fun st c n _ hn => ?_⟩
  show utf8Wctomb c n ≠ .abort ∧ True ∧ ∀ b, utf8Wctomb c n = .bytes b → b.length ≤ n
  by_cases hc : Utf8Char c
  · rw [utf8Wctomb_eq hc]
    split
    · simp
    · refine ⟨by simp, trivial, fun b h => ?_⟩
      simp at h; subst h; omega
  · unfold Utf8Char at hc
    have : utf8Wctomb c n = .iluni := by
      unfold utf8Wctomb utf8Count
      rw [if_neg (by omega), if_neg (by omega), if_neg (by omega), if_neg (by omega), if_neg (by omega), if_neg (by omega)]
    rw [this]; simp

theorem ucs2_safeLoop (orig : Nat) : ∀ (st count : Nat) (bs : Str),
    (ucs2Loop orig st count bs).1 ≠ .abort ∧ (∀ c n, (ucs2Loop orig st count bs).1 = .char c n → 0 < n ∧ n ≤ count + bs.length) ∧
      (∀ n, (ucs2Loop orig st count bs).1 = .few n → n ≤ count + bs.length) := by
  intro st count bs
  fun_induction ucs2Loop orig st count bs with
  | case1 state count b0 b1 rest wc h ih =>
    simp only [List.length_cons]
    refine ⟨ih.1, fun c n h => ?_, fun n h => ?_⟩
    · have := ih.2.1 c n h; omega
    · have := ih.2.2 n h; omega
  | case2 state count b0 b1 rest wc h1 h2 ih =>
    simp only [List.length_cons]
    refine ⟨ih.1, fun c n h => ?_, fun n h => ?_⟩
    · have := ih.2.1 c n h; omega
    · have := ih.2.2 n h; omega
  | case3 => simp
  | case4 =>
    refine ⟨by simp, fun c n h => ?_, by simp⟩
    simp at h
    simp only [List.length_cons]
    omega
  | case5 =>
    refine ⟨by simp, by simp, fun n h => ?_⟩
    simp at h
    omega

theorem ucs2_safeIn : SafeIn ucs2 (fun _ => True) := by
  refine ⟨trivial, fun st bs _ hne => ?_⟩
  obtain ⟨h1, h2, h3⟩ := ucs2_safeLoop st st 0 bs
  simp only [Nat.zero_add] at h2 h3
  exact ⟨h1, trivial, h2, h3⟩

theorem ucs2_safeOut : SafeOut ucs2 (fun _ => True) := by
  refine ⟨trivial, fun st c n _ hn => ?_⟩
  show ucs2Wctomb c n ≠ .abort ∧ True ∧ ∀ b, ucs2Wctomb c n = .bytes b → b.length ≤ n
  unfold ucs2Wctomb
  split
  · split
    · refine ⟨by simp, trivial, fun b h => ?_⟩
      simp at h; subst h; simpa using ‹_›
    · simp
  · simp

/-! ## UTF-7 -/

theorem baseStep_safe {st wc k i : Nat} (hst : st < 256) (hi : i < 64) :
    (baseStep st wc k i).1 < 256 ∧
    (((baseStep st wc k i).2.2 = k ∧ (baseStep st wc k i).2.1 = wc) ∨
      ((baseStep st wc k i).2.2 = k + 1 ∧ (baseStep st wc k i).1 &&& 3 ≠ 0 ∧ ∃ x < 256, (baseStep st wc k i).2.1 = wc * 256 + x)) := by
  have hd : dataOf st < 2 ^ 8 := by rw [dataOf_eq hst]; omega
  have hval : ∀ y, y < 64 → ∃ x < 256, (wc <<< 8 ||| dataOf st) ||| y = wc * 256 + x := by
    intro y hy
    have hx : dataOf st ||| y < 2 ^ 8 := Nat.or_lt_two_pow hd (by omega)
    exact ⟨_, hx, by rw [Nat.or_assoc, Nat.shiftLeft_eq, chain (k := 8) wc hx rfl]⟩
  unfold baseStep
  split
  · refine ⟨?_, .inl ⟨rfl, rfl⟩⟩
    show i <<< 2 < 256
    rw [Nat.shiftLeft_eq]; omega
  split
  · have e : ((i &&& 15) <<< 4) ||| 2 = i % 16 * 16 + 2 := by rw [and15, Nat.shiftLeft_eq, chain (k := 4) (i % 16) (by omega) rfl]
    refine ⟨?_, .inr ⟨rfl, ?_, hval _ ?_⟩⟩
    · show _ ||| 2 < 256; rw [e]; omega
    · show (_ ||| 2) &&& 3 ≠ 0; rw [e, and3]; omega
    · rw [Nat.shiftRight_eq_div_pow]; omega
  split
  · have e : ((i &&& 3) <<< 6) ||| 3 = i % 4 * 64 + 3 := by rw [and3, Nat.shiftLeft_eq, chain (k := 6) (i % 4) (by omega) rfl]
    refine ⟨?_, .inr ⟨rfl, ?_, hval _ ?_⟩⟩
    · show _ ||| 3 < 256; rw [e]; omega
    · show (_ ||| 3) &&& 3 ≠ 0; rw [e, and3]; omega
    · rw [Nat.shiftRight_eq_div_pow]; omega
  · exact ⟨by show 1 < 256; decide, .inr ⟨rfl, by show 1 &&& 3 ≠ 0; decide, hval i hi⟩⟩

theorem base64Value_lt {b : Byte} {i : Nat} (h : base64Value b = some i) : i < 64 := by
  have : ∀ b : Byte, ∀ i, base64Value b = some i → i < 64 := by
    intro b i h
    unfold base64Value at h
    simp only at h
    repeat' split at h
    all_goals first | (simp at h; done) | (simp at h; omega)
  exact this b i h

/-- What is known within the loop. -/
def Mid (wc k kmax : Nat) : Prop := (kmax = 2 ∧ k < 2) ∨ (kmax = 4 ∧ 2 ≤ k ∧ k < 4 ∧ 0xd800 ≤ wc / 256 ^ (k - 2) ∧ wc / 256 ^ (k - 2) < 0xdc00)

theorem baseLoop_safe : ∀ (rest : Str) (st wc k kmax count : Nat), rest ≠ [] → st < 256 → Mid wc k kmax →
    match baseLoop rest st wc k kmax count with
    | .abort => False
    | .stop st' n => st' < 256 ∧ (n = count → st' = st ∧ ∃ c r, rest = c :: r ∧ base64Value c = none)
    | .starve n => n = count + rest.length
    | .done wc' kmax' st' n => st' < 256 ∧ st' &&& 3 ≠ 0 ∧ count < n ∧ n ≤ count + rest.length ∧
        (kmax' = 4 → 0xd800 ≤ wc' / 65536 ∧ wc' / 65536 < 0xdc00) := by
  intro rest
  induction rest with
  | nil => intro _ _ _ _ _ h; exact absurd rfl h
  | cons c rest ih =>
    intro st wc k kmax count _ hst hmid
    rw [baseLoop]
    cases hv : base64Value c with
    | none => exact ⟨hst, fun _ => ⟨rfl, c, rest, rfl, hv⟩⟩
    | some i =>
      simp only
      obtain ⟨hlt, hcase⟩ := baseStep_safe (wc := wc) (k := k) hst (base64Value_lt hv)
      generalize baseStep st wc k i = r at *
      have next : ∀ kmax', Mid r.2.1 r.2.2 kmax' →
          match (if rest = [] then Base.starve (count + 1) else baseLoop rest r.1 r.2.1 r.2.2 kmax' (count + 1)) with
          | .abort => False
          | .stop st' n => st' < 256 ∧ (n = count → st' = st ∧ ∃ c' r, c :: rest = c' :: r ∧ base64Value c' = none)
          | .starve n => n = count + (c :: rest).length
          | .done wc' kmax' st' n => st' < 256 ∧ st' &&& 3 ≠ 0 ∧ count < n ∧ n ≤ count + (c :: rest).length ∧
              (kmax' = 4 → 0xd800 ≤ wc' / 65536 ∧ wc' / 65536 < 0xdc00) := by
        intro kmax' hm
        by_cases hr : rest = []
        · rw [if_pos hr]; simp [hr]
        · rw [if_neg hr]
          have h := ih r.1 r.2.1 r.2.2 kmax' (count + 1) hr hlt hm
          have hcount : ∀ st' n, baseLoop rest r.1 r.2.1 r.2.2 kmax' (count + 1) = .stop st' n → count < n := baseLoop_count rest _ _ _ _ _
          generalize baseLoop rest r.1 r.2.1 r.2.2 kmax' (count + 1) = b at *
          cases b with
          | abort => exact h
          | stop st' n => exact ⟨h.1, fun e => by have := hcount st' n rfl; omega⟩
          | starve n => simp only [List.length_cons] at *; omega
          | done wc' km st' n =>
            obtain ⟨a1, a2, a3, a4, a5⟩ := h
            exact ⟨a1, a2, by omega, by simp only [List.length_cons]; omega, a5⟩
      by_cases hk : r.2.2 = kmax
      · rw [if_pos hk]
        have hstep : r.1 &&& 3 ≠ 0 ∧ ∃ x < 256, r.2.1 = wc * 256 + x := by
          rcases hcase with ⟨h1, _⟩ | ⟨_, h2, h3⟩
          · unfold Mid at hmid; omega
          · exact ⟨h2, h3⟩
        by_cases hs : kmax = 2 ∧ r.2.1 ≥ 0xd800 ∧ r.2.1 < 0xdc00
        · rw [if_pos hs]
          refine next 4 (.inr ⟨rfl, by omega, by omega, ?_, ?_⟩) <;> rw [hk, hs.1] <;> simp <;> omega
        · rw [if_neg hs]
          refine ⟨hlt, hstep.1, by omega, by simp only [List.length_cons]; omega, fun h4 => ?_⟩
          rcases hmid with ⟨h2, _⟩ | ⟨_, hk2, hk4, hw1, hw2⟩
          · omega
          · obtain ⟨x, hx, e⟩ := hstep.2
            have hk3 : k = 3 := by
              rcases hcase with ⟨h1, _⟩ | ⟨h1, _⟩ <;> omega
            subst hk3
            simp at hw1 hw2
            omega
      · rw [if_neg hk]
        apply next
        rcases hcase with ⟨h1, h2⟩ | ⟨h1, h2, x, hx, e⟩
        · rw [h1, h2]; exact hmid
        · rcases hmid with ⟨h2, h3⟩ | ⟨h2, hk2, hk4, hw1, hw2⟩
          · exact .inl ⟨h2, by omega⟩
          · have hk2' : k = 2 := by omega
            subst hk2'
            refine .inr ⟨h2, by omega, by omega, ?_, ?_⟩ <;> rw [h1, e] <;> simp at * <;> omega
where
  baseLoop_count : ∀ (rest : Str) (st wc k kmax count : Nat), ∀ st' n, baseLoop rest st wc k kmax count = .stop st' n → count ≤ n := by
    intro rest
    induction rest with
    | nil => intro _ _ _ _ _ _ _ h; simp [baseLoop] at h
    | cons c rest ih =>
      intro st wc k kmax count st' n h
      rw [baseLoop] at h
      split at h
      · simp at h; omega
      · simp only at h
        repeat' split at h
        all_goals first | (simp at h; done) | (have := ih _ _ _ _ _ _ _ h; omega)

theorem utf7Go_safe (orig : Nat) (start : Byte) (ho : orig < 256) : ∀ (f state count : Nat) (rest : Str), state < 256 →
    ((2 * rest.length + 1 ≤ f ∧ (state &&& 3 ≠ 0 → rest ≠ [])) ∨ (state &&& 3 = 0 ∧ 0 < f ∧ ∃ c r, rest = c :: r ∧ c ≠ 43)) →
    let d := utf7Go orig start f state count rest
    d.1 ≠ .abort ∧ d.2 < 256 ∧ (∀ c n, d.1 = .char c n → count < n ∧ n ≤ count + rest.length) ∧ (∀ n, d.1 = .few n → n ≤ count + rest.length) := by
  intro f
  induction f with
  | zero => intro state count rest _ h; rcases h with h | h <;> omega
  | succ f ih =>
    intro state count rest hst h
    rw [utf7Go.eq_def]
    simp only
    by_cases hact : state &&& 3 ≠ 0
    · rw [if_pos hact]
      obtain ⟨hf, hne⟩ : 2 * rest.length + 1 ≤ f + 1 ∧ rest ≠ [] := by
        rcases h with h | h
        · exact ⟨h.1, h.2 hact⟩
        · exact absurd h.1 hact
      have hpos := List.length_pos_iff.2 hne
      have hb := baseLoop_safe rest state 0 0 2 0 hne hst (.inl ⟨rfl, by decide⟩)
      generalize baseLoop rest state 0 0 2 0 = b at *
      cases b with
      | abort => exact hb.elim
      | stop st n =>
        simp only at hb ⊢
        split
        · exact ⟨by simp, ho, by simp, by simp⟩
        split
        · exact ⟨by simp, ho, by simp, by simp⟩
        · rename_i hn
          obtain ⟨-, c, r, rfl, hv⟩ := hb.2 (Decidable.not_not.1 hn)
          simp only
          simp only [List.length_cons] at hf ⊢
          split
          · obtain ⟨a1, a2, a3, a4⟩ := ih 0 (count + 1) r (by decide) (.inl ⟨by omega, fun h => absurd rfl h⟩)
            exact ⟨a1, a2, fun c n h => by have := a3 c n h; omega, fun n h => by have := a4 n h; omega⟩
          · have hc : c ≠ 43 := by rintro rfl; exact absurd hv (by decide)
            have := ih 0 count (c :: r) (by decide) (.inr ⟨rfl, by omega, c, r, rfl, hc⟩)
            simpa only [List.length_cons] using this
      | starve n =>
        simp only
        split
        · exact ⟨by simp, ho, by simp, by simp⟩
        · refine ⟨by simp, hst, by simp, fun n h => ?_⟩
          simp at h; omega
      | done wc kmax st n =>
        obtain ⟨a1, a2, a3, a4, a5⟩ := hb
        simp only
        rw [if_neg a2]
        split
        · rename_i h4
          have a5 := a5 h4
          have e : wc >>> 16 = wc / 65536 := by rw [Nat.shiftRight_eq_div_pow]
          rw [if_neg (by rw [e]; omega)]
          split
          · exact ⟨by simp, ho, by simp, by simp⟩
          · refine ⟨by simp, a1, fun c n h => ?_, by simp⟩
            simp at h; omega
        · refine ⟨by simp, a1, fun c n h => ?_, by simp⟩
          simp at h; omega
    · rw [if_neg hact]
      cases rest with
      | nil => exact ⟨by simp, hst, by simp, fun n h => by simp at h; omega⟩
      | cons c rest =>
        simp only [List.length_cons]
        split
        · exact ⟨by simp, hst, fun c n h => by simp at h; omega, by simp⟩
        split
        · rename_i hc
          cases rest with
          | nil => exact ⟨by simp, hst, by simp, fun n h => by simp at h; omega⟩
          | cons d rest =>
            simp only
            split
            · exact ⟨by simp, hst, fun c n h => by simp at h; simp; omega, by simp⟩
            · have hf : 2 * (c :: d :: rest).length + 1 ≤ f + 1 := by
                rcases h with h | ⟨_, _, c', r', h1, h2⟩
                · exact h.1
                · simp at h1; exact absurd hc (by rw [h1.1]; exact h2)
              simp only [List.length_cons] at hf
              obtain ⟨a1, a2, a3, a4⟩ := ih 1 (count + 1) (d :: rest) (by decide) (.inl ⟨by simp only [List.length_cons]; omega, by simp⟩)
              simp only [List.length_cons] at a3 a4
              exact ⟨a1, a2, fun c n h => by have := a3 c n h; simp only [List.length_cons]; omega, fun n h => by have := a4 n h; simp only [List.length_cons]; omega⟩
        · exact ⟨by simp, ho, by simp, by simp⟩

theorem utf7_safeIn : SafeIn utf7 (fun st => st < 256) := by
  refine ⟨by decide, fun st bs hst hne => ?_⟩
  cases bs with
  | nil => exact absurd rfl hne
  | cons b bs =>
    have := utf7Go_safe st b hst (2 * (b :: bs).length + 1) st 0 (b :: bs) hst (.inl ⟨Nat.le_refl _, by simp⟩)
    simp only [Nat.zero_add] at this
    exact this

theorem utf7Active_safe {st : Nat} {pb : List Bool} (hp : Pend st pb) (orig : Nat) (horig : orig = 0 ∨ ∃ pb, Pend orig pb) (pre : Str) (c n : Nat) :
    (utf7Active orig pre st c n).1 ≠ .abort ∧ ((utf7Active orig pre st c n).2 = 0 ∨ ∃ pb, Pend (utf7Active orig pre st c n).2 pb) ∧
      ∀ b, (utf7Active orig pre st c n).1 = .bytes b → b.length ≤ n := by
  cases hdir : inTab directTab c with
  | true =>
    obtain ⟨ds, z, h1, h2, h3, h4, h5⟩ := write_pending hp
    unfold utf7Active
    simp only [hdir, if_true, h3, ← h5]
    generalize hx : (if inTab xbase64Tab c = true then 1 else 0) = x
    by_cases hn : n < pre.length + ds.length + x + 1
    · rw [if_pos hn]; exact ⟨by simp, horig, by simp⟩
    · rw [if_neg hn]
      refine ⟨by simp, .inl rfl, fun b h => ?_⟩
      simp only [Enc.bytes.injEq] at h
      subst h
      simp only [List.length_append, List.length_map, List.length_cons, List.length_nil]
      have : (if inTab xbase64Tab c = true then ([45] : Str) else []).length = x := by rw [← hx]; split <;> rfl
      omega
  | false =>
    by_cases hc : c < 0x110000
    · obtain ⟨ds, st', pb', e1, e2, e3, e4, e5⟩ := write_char hp hc hdir
      rw [e5]
      split
      · exact ⟨by simp, horig, by simp⟩
      · refine ⟨by simp, .inr ⟨pb', e3⟩, fun b h => ?_⟩
        simp only [Enc.bytes.injEq] at h
        subst h
        omega
    · unfold utf7Active
      simp only [hdir, Bool.false_eq_true, if_false]
      rw [if_neg (by omega), if_neg hc]
      exact ⟨by simp, horig, by simp⟩

theorem utf7_safeOut : SafeOut utf7 (fun st => st = 0 ∨ ∃ pb, Pend st pb) := by
  refine ⟨.inl rfl, fun st c n hst hn => ?_⟩
  show (utf7Wctomb st c n).1 ≠ _ ∧ ((utf7Wctomb st c n).2 = 0 ∨ ∃ pb, Pend (utf7Wctomb st c n).2 pb) ∧ ∀ b, (utf7Wctomb st c n).1 = .bytes b → _
  unfold utf7Wctomb
  rcases hst with rfl | ⟨pb, hp⟩
  · rw [if_neg (by decide)]
    split
    · refine ⟨by simp, .inl rfl, fun b h => ?_⟩
      simp at h; subst h; simp; omega
    split
    · split
      · exact ⟨by simp, .inl rfl, by simp⟩
      · refine ⟨by simp, .inl rfl, fun b h => ?_⟩
        simp at h; subst h; simp; omega
    · exact utf7Active_safe .none 0 (.inl rfl) [43] c n
  · rw [if_pos hp.active]
    exact utf7Active_safe hp st (.inr ⟨pb, hp⟩) [] c n

/-- The states of a decoder. -/
def Encoding.inState : Encoding → Nat → Prop
  | .utf7 => fun st => st < 256
  | _ => fun _ => True

/-- The states of an encoder. -/
def Encoding.outState : Encoding → Nat → Prop
  | .utf7 => fun st => st = 0 ∨ ∃ pb, Pend st pb
  | _ => fun _ => True

theorem Encoding.safeIn (e : Encoding) : SafeIn e.codec e.inState := by
  cases e with
  | one t => exact one_safeIn t
  | utf8 => exact utf8_safeIn
  | ucs2 => exact ucs2_safeIn
  | utf7 => exact utf7_safeIn

theorem Encoding.safeOut (e : Encoding) : SafeOut e.codec e.outState := by
  cases e with
  | one t => exact one_safeOut t
  | utf8 => exact utf8_safeOut
  | ucs2 => exact ucs2_safeOut
  | utf7 => exact utf7_safeOut

end Verif.Iconv
