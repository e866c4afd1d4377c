import Verif.Numconv.Model
import Verif.Numconv.Spec
import Mathlib.Tactic.Ring
import Mathlib.Tactic.Push
import Mathlib.Data.List.Nodup
import Mathlib.Data.List.Induction

/-!
# Writing numbers in words: lemmas
-/

namespace Verif.Numconv

open Spec

/-- A digit. -/
def dig (d : Fin 10) : Byte := UInt8.ofNat (48 + d.val)

/-! ### Digits -/

theorem digit_cases {c : Byte} (h : 48 ≤ c.toNat ∧ c.toNat ≤ 57) : ∃ d : Fin 10, c = dig d := by
  refine ⟨⟨c.toNat - 48, by omega⟩, ?_⟩
  apply UInt8.toNat_inj.mp
  simp only [dig, UInt8.toNat_ofNat']
  omega

theorem dig_toNat (d : Fin 10) : (dig d).toNat = 48 + d.val := by
  revert d; decide

theorem isDigit_dig (d : Fin 10) : isDigit (dig d) = true := by
  revert d; decide

theorem foldl_value (b : Str) : ∀ v, b.foldl (fun v (c : Byte) => 10 * v + (c.toNat - 48)) v
    = v * 10 ^ b.length + value b := by
  induction b with
  | nil => simp [value]
  | cons c b ih =>
    intro v
    have h1 := ih (10 * v + (c.toNat - 48))
    have h2 := ih (10 * 0 + (c.toNat - 48))
    simp only [value, List.foldl_cons, List.length_cons] at h1 h2 ⊢
    rw [h1, h2]
    ring

theorem value_append (a b : Str) : value (a ++ b) = value a * 10 ^ b.length + value b := by
  rw [value, List.foldl_append, foldl_value]; rfl

theorem value_lt (n : Str) (h : ∀ c ∈ n, 48 ≤ c.toNat ∧ c.toNat ≤ 57) :
    value n < 10 ^ n.length := by
  induction n using List.reverseRecOn with
  | nil => simp [value]
  | append_singleton n c ih =>
    have h1 := ih fun c hc => h c (by simp [hc])
    have h2 := h c (by simp)
    have h3 : value [c] = c.toNat - 48 := by simp [value]
    rw [value_append]
    simp only [List.length_append, List.length_singleton, Nat.pow_succ, Nat.pow_zero, h3]
    omega

theorem group_cases {n : Str} (h : Digits n) (hl : n.length ≤ 3) :
    (∃ u, n = [dig u]) ∨ (∃ t u, n = [dig t, dig u]) ∨ ∃ a t u, n = [dig a, dig t, dig u] := by
  obtain ⟨h0, h1⟩ := h
  match n, h0, h1, hl with
  | [a], _, h1, _ =>
    obtain ⟨d, rfl⟩ := digit_cases (h1 a (by simp))
    exact .inl ⟨d, rfl⟩
  | [a, b], _, h1, _ =>
    obtain ⟨d, rfl⟩ := digit_cases (h1 a (by simp))
    obtain ⟨e, rfl⟩ := digit_cases (h1 b (by simp))
    exact .inr (.inl ⟨d, e, rfl⟩)
  | [a, b, c], _, h1, _ =>
    obtain ⟨d, rfl⟩ := digit_cases (h1 a (by simp))
    obtain ⟨e, rfl⟩ := digit_cases (h1 b (by simp))
    obtain ⟨f, rfl⟩ := digit_cases (h1 c (by simp))
    exact .inr (.inr ⟨d, e, f, rfl⟩)

theorem value1 (u : Fin 10) : value [dig u] = u := by simp [value, dig_toNat]

theorem value2 (t u : Fin 10) : value [dig t, dig u] = 10 * t + u := by
  simp [value, dig_toNat]

theorem value3 (h t u : Fin 10) : value [dig h, dig t, dig u] = 100 * h + 10 * t + u := by
  simp [value, dig_toNat]; ring

/-! ### Words -/

theorem words_nil : words [] = [] := rfl

theorem words_join {a b : Str} (ha : a ≠ []) (hb : b ≠ []) :
    words (a ++ 32 :: b) = words a ++ words b := by
  simp [words, ha, hb, List.splitOn_append_cons_self]

theorem words_one {a : Str} (ha : a ≠ []) (h : 32 ∉ a) : words a = [a] := by
  simp [words, ha, List.splitOn_eq_singleton h]

/-- A text which does not begin with a blank. -/
def Good (t : Str) : Prop := t.head? ≠ some 32

instance (t : Str) : Decidable (Good t) := inferInstanceAs (Decidable (_ ≠ _))

theorem prepend_words {s p : Str} (hs : Good s) (hp : Good p) :
    ∃ t, prepend s p .CARDINAL = some t ∧ words t = words p ++ words s ∧ Good t := by
  cases s with
  | nil => exact ⟨p, rfl, by simp [words_nil], hp⟩
  | cons c s =>
    have hc : c ≠ 32 := by simpa [Good] using hs
    by_cases h : p = []
    · subst h
      exact ⟨c :: s, by simp [prepend, hc], by simp [words_nil], hs⟩
    · refine ⟨p ++ 32 :: c :: s, by simp [prepend, hc, h, joiner], words_join h (by simp), ?_⟩
      cases p with
      | nil => exact absurd rfl h
      | cons a p => simpa [Good] using hp

/-- A text has as many codes as words. -/
def Codes (p : Pair) : Prop := Good p.2 ∧ (words p.2).length = (words p.1).length

/-- A text which ends in two has its code at the end. -/
def Dwa (p : Pair) : Prop := ∀ x, p.1 = x ++ b!"dwa" → ∃ y, p.2 = y ++ b!"LG:z"

theorem words_eq_nil {t : Str} : words t = [] ↔ t = [] := by
  constructor
  · intro h
    by_contra hne
    simp [words, hne, List.splitOn_ne_nil] at h
  · rintro rfl; rfl

theorem prepend_end {s p t : Str} (hs : Good s) (h : prepend s p .CARDINAL = some t) :
    (s = [] ∧ t = p) ∨ (s ≠ [] ∧ (t = s ∨ ∃ x, t = x ++ 32 :: s)) := by
  cases s with
  | nil => simp [prepend] at h; exact .inl ⟨rfl, h.symm⟩
  | cons c s =>
    right
    have hc : c ≠ 32 := by simpa [Good] using hs
    refine ⟨by simp, ?_⟩
    by_cases hp : p = []
    · left; simpa [prepend, hc, hp] using h.symm
    · right; exact ⟨p, by simpa [prepend, hc, hp, joiner] using h.symm⟩

/-- Putting a text and its codes before others. -/
theorem prepend_codes {te ti p1 p2 te' ti' : Str} (hte : Good te) (hp : Good p1)
    (h1 : prepend te p1 .CARDINAL = some te') (h2 : prepend ti p2 .CARDINAL = some ti')
    (hc : Codes (te, ti)) (hcp : Codes (p1, p2)) : Codes (te', ti') := by
  obtain ⟨a, ha, hwa, _⟩ := prepend_words hte hp
  obtain ⟨b, hb, hwb, hgb⟩ := prepend_words hc.1 hcp.1
  rw [ha] at h1
  rw [hb] at h2
  simp only [Option.some.injEq] at h1 h2
  subst h1 h2
  refine ⟨hgb, ?_⟩
  have e1 := hc.2
  have e2 := hcp.2
  simp only at e1 e2
  simp only [hwa, hwb, List.length_append, e1, e2]

theorem prepend_dwa {te ti p1 p2 te' ti' : Str} (hte : Good te)
    (h1 : prepend te p1 .CARDINAL = some te') (h2 : prepend ti p2 .CARDINAL = some ti')
    (hc : Codes (te, ti)) (hd : Dwa (te, ti)) (hdp : Dwa (p1, p2)) : Dwa (te', ti') := by
  intro x hx
  simp only at hx
  have hiff : te = [] ↔ ti = [] := by
    rw [← words_eq_nil, ← words_eq_nil, ← List.length_eq_zero_iff, ← List.length_eq_zero_iff]
    have := hc.2
    simp only at this
    rw [this]
  rcases prepend_end hte h1 with ⟨e1, e2⟩ | ⟨e1, e2⟩
  · rcases prepend_end hc.1 h2 with ⟨f1, f2⟩ | ⟨f1, f2⟩
    · obtain ⟨y, hy⟩ := hdp x (e2.symm.trans hx)
      exact ⟨y, f2.trans hy⟩
    · exact absurd (hiff.mp e1) f1
  · rcases prepend_end hc.1 h2 with ⟨f1, f2⟩ | ⟨f1, f2⟩
    · exact absurd (hiff.mpr f1) e1
    · have key : ∃ z, te = z ++ b!"dwa" := by
        rcases e2 with rfl | ⟨a, rfl⟩
        · exact ⟨x, hx⟩
        · have s1 : b!"dwa" <:+ a ++ 32 :: te := ⟨x, hx.symm⟩
          have s2 : 32 :: te <:+ a ++ 32 :: te := ⟨a, rfl⟩
          rcases Nat.lt_or_ge te.length 3 with hl | hl
          · exfalso
            have := List.suffix_of_suffix_length_le s2 s1 (by simp; omega)
            have hm : (32 : Byte) ∈ b!"dwa" := this.subset (by simp)
            exact absurd hm (by decide)
          · have s3 : te <:+ a ++ 32 :: te := ⟨a ++ [32], by simp⟩
            obtain ⟨z, hz⟩ := List.suffix_of_suffix_length_le s1 s3 (by simpa using hl)
            exact ⟨z, hz.symm⟩
      obtain ⟨z, hz⟩ := key
      obtain ⟨y, hy⟩ := hd z hz
      simp only at hy
      rcases f2 with rfl | ⟨a, rfl⟩
      · exact ⟨y, hy⟩
      · exact ⟨a ++ 32 :: y, by simp [hy]⟩

theorem prepend_some (s p : Str) : ∃ t, prepend s p .CARDINAL = some t := by
  unfold prepend
  split
  · exact ⟨_, rfl⟩
  · split
    · split
      · exact ⟨_, rfl⟩
      · exact ⟨_, rfl⟩
    · exact ⟨_, rfl⟩

/-! ### Reading -/

def readSmall (c : Case) (cur : Nat) (w : Str) : Option Nat :=
  match (small c).lookup w with
  | some v => if fits cur v then some (cur + v) else none
  | none => none

theorem readSmall_word {c : Case} {cur v : Nat} {w : Str} (h : readSmall c cur w = some v)
    (T : Nat) : readWord c (T, cur) w = some (T, v) := by
  unfold readSmall at h
  unfold readWord
  split at h <;> rename_i hl
  · rw [hl]
    split at h <;> rename_i hf
    · simp only [Option.some.injEq] at h
      simp [hf, h]
    · simp at h
  · simp at h

theorem readSmall_words {c : Case} {ws : List Str} : ∀ {cur v : Nat},
    ws.foldlM (readSmall c) cur = some v → ∀ T, ws.foldlM (readWord c) (T, cur) = some (T, v) := by
  induction ws with
  | nil => intro cur v h T; simp at h; simp [h]
  | cons w ws ih =>
    intro cur v h T
    simp only [List.foldlM_cons] at h ⊢
    cases h1 : readSmall c cur w with
    | none => simp [h1] at h
    | some v1 =>
      simp only [h1, Option.bind_eq_bind, Option.bind_some] at h
      simp only [readSmall_word h1 T, Option.bind_eq_bind, Option.bind_some]
      exact ih h T

def caseForm : Case → Form
  | .nominative => .CARDINAL
  | .genitive => .CARDINAL_G

def groupOk (c : Case) (n : Str) (v : Nat) : Bool :=
  match convertThreeDigitGroup (caseForm c) n with
  | none => false
  | some p => p.1.head? ≠ some 32 && (words p.1).foldlM (readSmall c) 0 = some v
    && (p.2.head? ≠ some 32 && (words p.2).length = (words p.1).length)
    && (c ≠ .nominative || p.1.drop (p.1.length - 3) ≠ b!"dwa"
      || p.2.drop (p.2.length - 4) = b!"LG:z")

theorem groupOk3n : ∀ h t u : Fin 10,
    groupOk .nominative [dig h, dig t, dig u] (100 * h + 10 * t + u) = true := by
  decide +kernel

theorem groupOk3g : ∀ h t u : Fin 10,
    groupOk .genitive [dig h, dig t, dig u] (100 * h + 10 * t + u) = true := by
  decide +kernel

theorem groupOk2 : ∀ t u : Fin 10,
    groupOk .nominative [dig t, dig u] (10 * t + u) = true ∧
    groupOk .genitive [dig t, dig u] (10 * t + u) = true := by
  decide +kernel

theorem groupOk1 : ∀ u : Fin 10, u ≠ 0 →
    groupOk .nominative [dig u] u = true ∧ groupOk .genitive [dig u] u = true := by
  decide +kernel

theorem zeroOk : (convertThreeDigitGroup .CARDINAL [dig 0]).isSome ∧
    (convertThreeDigitGroup .CARDINAL_G [dig 0]).isSome := by
  decide +kernel

/-- The words of a group make its value. -/
theorem group_ok (c : Case) {n : Str} (h : Digits n) (hl : n.length ≤ 3)
    (h0 : n.length = 1 → value n ≠ 0) :
    ∃ p, convertThreeDigitGroup (caseForm c) n = some p ∧ Good p.1 ∧
      (words p.1).foldlM (readSmall c) 0 = some (value n) ∧ Codes p ∧
      (c = .nominative → Dwa p) := by
  have key : groupOk c n (value n) = true := by
    rcases group_cases h hl with ⟨u, rfl⟩ | ⟨t, u, rfl⟩ | ⟨a, t, u, rfl⟩
    · rw [value1] at h0 ⊢
      have hu : u ≠ 0 := by
        rintro rfl; exact h0 rfl rfl
      cases c
      · exact (groupOk1 u hu).1
      · exact (groupOk1 u hu).2
    · rw [value2]
      cases c
      · exact (groupOk2 t u).1
      · exact (groupOk2 t u).2
    · rw [value3]
      cases c
      · exact groupOk3n a t u
      · exact groupOk3g a t u
  unfold groupOk at key
  split at key
  · simp at key
  · rename_i p hp
    simp only [ne_eq, decide_not, Bool.and_eq_true, Bool.or_eq_true, Bool.not_eq_eq_eq_not,
      Bool.not_true, decide_eq_false_iff_not, decide_eq_true_eq] at key
    obtain ⟨⟨⟨k1, k2⟩, k3, k4⟩, k5⟩ := key
    refine ⟨p, hp, k1, k2, ⟨k3, k4⟩, fun hc x hx => ?_⟩
    rcases k5 with (k5 | k5) | k5
    · exact absurd hc k5
    · exact absurd (by rw [hx]; simp) k5
    · exact ⟨p.2.take (p.2.length - 4), by
        conv_lhs => rw [← List.take_append_drop (p.2.length - 4) p.2, k5]⟩

theorem group_some (c : Case) {n : Str} (h : Digits n) (hl : n.length ≤ 3) :
    ∃ p, convertThreeDigitGroup (caseForm c) n = some p := by
  by_cases h0 : n.length = 1 → value n ≠ 0
  · obtain ⟨p, hp, _⟩ := group_ok c h hl h0
    exact ⟨p, hp⟩
  · push Not at h0
    rcases group_cases h hl with ⟨u, rfl⟩ | ⟨t, u, rfl⟩ | ⟨a, t, u, rfl⟩
    · rw [value1] at h0
      have hu : u = 0 := by have := h0.2; omega
      subst hu
      cases c
      · exact Option.isSome_iff_exists.mp zeroOk.1
      · exact Option.isSome_iff_exists.mp zeroOk.2
    · simp at h0
    · simp at h0

/-! ### Powers of a thousand -/

/-- A text as one number. -/
def code (w : Str) : Nat := w.foldl (fun a b => a * 256 + b.toNat) 1

theorem power_nodup : ∀ c : Fin 2, ∀ a : Fin 3,
    ((List.range 219).map fun r => code (power (if c = 0 then .nominative else .genitive)
      (if a = 0 then .one else if a = 1 then .few else .many) (r + 1))).Nodup := by
  decide +kernel

theorem power_inj (c : Case) (a : Agreement) {r r' : Nat} (hr : 0 < r) (hr' : 0 < r')
    (h : r < 220) (h' : r' < 220) (he : power c a r = power c a r') : r = r' := by
  have hn : ((List.range 219).map fun r => code (power c a (r + 1))).Nodup := by
    have := power_nodup (match c with | .nominative => 0 | .genitive => 1)
      (match a with | .one => 0 | .few => 1 | .many => 2)
    cases c <;> cases a <;> exact this
  have := List.inj_on_of_nodup_map hn (x := r - 1) (y := r' - 1) (by simp; omega) (by simp; omega)
    (by rw [Nat.sub_add_cancel hr, Nat.sub_add_cancel hr', he])
  omega

theorem power_word : ∀ c : Fin 2, ∀ a : Fin 3, ∀ r : Fin 220, r.val ≠ 0 →
    let w := power (if c = 0 then .nominative else .genitive)
      (if a = 0 then .one else if a = 1 then .few else .many) r
    w ≠ [] ∧ 32 ∉ w ∧ (small (if c = 0 then .nominative else .genitive)).lookup w = none := by
  decide +kernel

theorem power_ok (c : Case) (a : Agreement) {r : Nat} (hr : 0 < r) (h : r < 220) :
    power c a r ≠ [] ∧ 32 ∉ power c a r ∧ (small c).lookup (power c a r) = none := by
  have := power_word (match c with | .nominative => 0 | .genitive => 1)
    (match a with | .one => 0 | .few => 1 | .many => 2) ⟨r, h⟩ (by simp; omega)
  cases c <;> cases a <;> exact this

theorem power_eq : ∀ r : Fin 220, r.val ≠ 0 →
    thomil .CARDINAL r = some (power .nominative .one r) ∧
    thomil .CARDINAL_NPL r = some (power .nominative .few r) ∧
    thomil .CARDINAL_GPL r = some (power .nominative .many r) ∧
    thomil .CARDINAL_G r = some (power .genitive .one r) := by
  decide +kernel

theorem large_one {r : Nat} (hr : 0 < r) (h : r < 220) :
    makeLargeUnit .CARDINAL r = some (power .nominative .one r, b!"R:3") := by
  have := (power_eq ⟨r, h⟩ (by simp; omega)).1
  simp only at this
  simp [makeLargeUnit, h, this, unitTinfl]

theorem large_oneG {r : Nat} (hr : 0 < r) (h : r < 220) :
    makeLargeUnit .CARDINAL_G r = some (power .genitive .one r, b!"0") := by
  have := (power_eq ⟨r, h⟩ (by simp; omega)).2.2.2
  simp only at this
  simp [makeLargeUnit, h, this, unitTinfl]

theorem large_few {r : Nat} (hr : 0 < r) (h : r < 220) :
    makeLargeUnit .CARDINAL_NPL r
      = some (power .nominative .few r, power .nominative .one r ++ b!"_R:3") := by
  have h1 := (power_eq ⟨r, h⟩ (by simp; omega)).1
  have h2 := (power_eq ⟨r, h⟩ (by simp; omega)).2.1
  simp only at h1 h2
  simp [makeLargeUnit, h, h1, h2]

theorem large_many {r : Nat} (hr : 0 < r) (h : r < 220) :
    makeLargeUnit .CARDINAL_GPL r
      = some (power .nominative .many r, power .nominative .one r ++ b!"_R:3") := by
  have h1 := (power_eq ⟨r, h⟩ (by simp; omega)).1
  have h2 := (power_eq ⟨r, h⟩ (by simp; omega)).2.2.1
  simp only at h1 h2
  simp [makeLargeUnit, h, h1, h2]

theorem power_gen (a : Agreement) (ha : a ≠ .one) (r : Nat) :
    power .genitive a r = power .nominative .many r := by
  cases a
  · exact absurd rfl ha
  · rfl
  · rfl

theorem read_power (c : Case) {r g T : Nat} (hr : 0 < r) (h : r < 220) (hg : g ≠ 1)
    (hT : T % 1000 ^ (r + 1) = 0) :
    readWord c (T, g) (power c (agreement (if g = 0 then 1 else g)) r)
      = some (T + (if g = 0 then 1 else g) * 1000 ^ r, 0) := by
  obtain ⟨_, _, hl⟩ := power_ok c (agreement (if g = 0 then 1 else g)) hr h
  unfold readWord
  rw [hl]
  have hf : (List.range 220).find? (fun r' => r' ≠ 0 &&
      power c (agreement (if g = 0 then 1 else g)) r'
        = power c (agreement (if g = 0 then 1 else g)) r) = some r := by
    rw [List.find?_range_eq_some]
    refine ⟨by simp; omega, by simp [h], fun j hj => ?_⟩
    by_cases hj0 : j = 0
    · simp [hj0]
    · simp only [ne_eq, hj0, not_false_eq_true, decide_true, Bool.true_and, Bool.not_eq_eq_eq_not,
        Bool.not_true, decide_eq_false_iff_not]
      intro he
      have := power_inj c _ (by omega) hr (by omega) h he
      omega
  simp only [hf, hT, true_and]
  simp [hg]

end Verif.Numconv
