import Verif.Annot.Lemmas
import Mathlib.Tactic.Ring
set_option linter.unusedSimpArgs false
set_option linter.unusedVariables false

/-! Reading and writing numbers. -/
namespace Verif.Annot
open Verif

theorem shifted_small {i : Int} (h : Small i) : shifted i = i := by
  obtain ⟨h1, h2⟩ := h
  unfold shifted
  rw [Int.bmod_eq_of_le (by omega) (by omega)]
  rw [Int.fdiv_eq_ediv_of_nonneg _ (by decide)]
  omega

theorem shifted_range (i : Int) : Small (shifted i) := by
  unfold shifted Small
  have h1 := Int.bmod_lt (x := 2 * i + 1) (m := 2 ^ 32) (by decide)
  have h2 := Int.le_bmod (x := 2 * i + 1) (m := 2 ^ 32) (by decide)
  rw [Int.fdiv_eq_ediv_of_nonneg _ (by decide)]
  constructor <;> omega

/-! ### Digits -/

theorem isDigit_iff (c : Byte) : isDigit c = true ↔ 48 ≤ c.toNat ∧ c.toNat ≤ 57 := by
  simp [isDigit, UInt8.le_iff_toNat_le]

theorem isSpace_iff (c : Byte) : isSpace c = true ↔ Space c := by
  simp [isSpace, Space, UInt8.le_iff_toNat_le, ← UInt8.toNat_inj]

theorem readDigits_some (ds : Str) (v : Nat) (seen : Bool) (h : ∀ d ∈ ds, 48 ≤ d.toNat ∧ d.toNat ≤ 57) (hs : seen = true ∨ ds ≠ []) :
    readDigits ds v seen = some (v * 10 ^ ds.length + decimalValue ds) := by
  induction ds generalizing v seen with
  | nil => simp at hs; simp [readDigits, hs, decimalValue]
  | cons d ds ih =>
    have hd := (isDigit_iff d).2 (h d (by simp))
    simp only [readDigits, hd, if_true]
    rw [ih _ _ (fun e he => h e (by simp [he])) (Or.inl rfl)]
    congr 1
    simp only [decimalValue, List.length_cons, Nat.pow_succ]
    ring

theorem readDigits_inv {ds : Str} {v w : Nat} {seen : Bool} (h : readDigits ds v seen = some w) :
    (∀ d ∈ ds, 48 ≤ d.toNat ∧ d.toNat ≤ 57) ∧ (seen = true ∨ ds ≠ []) := by
  induction ds generalizing v seen with
  | nil =>
    simp only [readDigits] at h
    split at h
    · rename_i e; exact ⟨by simp, Or.inl e⟩
    · cases h
  | cons d ds ih =>
    simp only [readDigits] at h
    split at h
    · rename_i e
      refine ⟨?_, Or.inr (by simp)⟩
      intro e' he
      rcases List.mem_cons.1 he with rfl | he
      · exact (isDigit_iff _).1 e
      · exact (ih h).1 e' he
    · cases h

theorem readDigits_iff (ds : Str) (w : Nat) : readDigits ds 0 false = some w ↔ Digits ds ∧ w = decimalValue ds := by
  constructor
  · intro h
    obtain ⟨h1, h2⟩ := readDigits_inv h
    have h2 : ds ≠ [] := by simpa using h2
    rw [readDigits_some ds 0 false h1 (Or.inr h2)] at h
    simp at h
    exact ⟨⟨h2, h1⟩, h.symm⟩
  · rintro ⟨⟨h1, h2⟩, rfl⟩
    rw [readDigits_some ds 0 false h2 (Or.inr h1)]
    simp

theorem fits_iff (i : Int) : fits i = true ↔ -2147483648 ≤ i ∧ i ≤ 2147483647 := by
  simp only [fits, Bool.and_eq_true, decide_eq_true_eq]; omega

theorem dropWhile_split (s : Str) : ∃ ws, s = ws ++ s.dropWhile isSpace ∧ ∀ c ∈ ws, isSpace c = true :=
  ⟨s.takeWhile isSpace, by simp, fun c hc => List.all_eq_true.1 List.all_takeWhile c hc⟩

theorem dropWhile_append_not {ws : Str} (h : ∀ c ∈ ws, isSpace c = true) {c : Byte} {cs : Str} (hc : isSpace c = false) :
    (ws ++ c :: cs).dropWhile isSpace = c :: cs := by
  induction ws with
  | nil => simp [List.dropWhile, hc]
  | cons w ws ih =>
    have := h w (by simp)
    simp only [List.cons_append, List.dropWhile, this]
    exact ih (fun c hc => h c (by simp [hc]))

theorem digit_not_space {c : Byte} (h : 48 ≤ c.toNat ∧ c.toNat ≤ 57) : isSpace c = false := by
  cases e : isSpace c with
  | false => rfl
  | true =>
    rw [isSpace_iff] at e
    rcases e with e | e <;> omega

theorem digits_head {ds : Str} (h : Digits ds) : ∃ d t, ds = d :: t ∧ 48 ≤ d.toNat ∧ d.toNat ≤ 57 := by
  obtain ⟨h1, h2⟩ := h
  cases ds with
  | nil => exact absurd rfl h1
  | cons d t => exact ⟨d, t, rfl, h2 d (by simp)⟩

theorem readInt_iff (s : Str) (i : Int) : readInt s = some i ↔ Numeral s i := by
  constructor
  · intro h
    unfold readInt at h
    obtain ⟨ws, hs, hw⟩ := dropWhile_split s
    generalize s.dropWhile isSpace = r at hs h
    cases r with
    | nil => cases h
    | cons c cs =>
      simp only [Option.bind_eq_some_iff] at h
      obtain ⟨j, hj, hf⟩ := h
      split at hf
      · rename_i hfit
        cases hf
        obtain ⟨l1, l2⟩ := (fits_iff i).1 hfit
        refine ⟨l1, l2, ?_⟩
        have hw' : ∀ c ∈ ws, Space c := fun c hc => (isSpace_iff c).1 (hw c hc)
        split at hj
        · rename_i e
          rw [Option.map_eq_some_iff] at hj
          obtain ⟨v, hv, rfl⟩ := hj
          rw [readDigits_iff] at hv
          exact ⟨ws, [45], cs, by simp [hs, e], hw', hv.1, Or.inr (Or.inr ⟨rfl, by rw [hv.2]⟩)⟩
        · split at hj
          · rename_i e
            rw [Option.map_eq_some_iff] at hj
            obtain ⟨v, hv, rfl⟩ := hj
            rw [readDigits_iff] at hv
            exact ⟨ws, [43], cs, by simp [hs, e], hw', hv.1, Or.inr (Or.inl ⟨rfl, by rw [hv.2]⟩)⟩
          · rw [Option.map_eq_some_iff] at hj
            obtain ⟨v, hv, rfl⟩ := hj
            rw [readDigits_iff] at hv
            exact ⟨ws, [], c :: cs, by simp [hs], hw', hv.1, Or.inl ⟨rfl, by rw [hv.2]⟩⟩
      · cases hf
  · rintro ⟨l1, l2, ws, sg, ds, rfl, hw, hd, h⟩
    have hf := (fits_iff i).2 ⟨l1, l2⟩
    have hw' : ∀ c ∈ ws, isSpace c = true := fun c hc => (isSpace_iff c).2 (hw c hc)
    have hr := (readDigits_iff ds _).2 ⟨hd, rfl⟩
    unfold readInt
    rcases h with ⟨rfl, hi⟩ | ⟨rfl, hi⟩ | ⟨rfl, hi⟩
    · obtain ⟨d, t, rfl, hb⟩ := digits_head hd
      rw [List.append_nil, dropWhile_append_not hw' (digit_not_space hb)]
      have h1 : d ≠ 45 := by rintro rfl; simp at hb
      have h2 : d ≠ 43 := by rintro rfl; simp at hb
      simp [h1, h2, hr, ← hi, hf]
    · rw [List.append_assoc, List.singleton_append, dropWhile_append_not hw' (by decide)]
      simp [hr, ← hi, hf]
    · rw [List.append_assoc, List.singleton_append, dropWhile_append_not hw' (by decide)]
      simp [hr, ← hi, hf]

/-! ### Writing -/

theorem decimalValue_append (a b : Str) : decimalValue (a ++ b) = decimalValue a * 10 ^ b.length + decimalValue b := by
  induction a with
  | nil => simp [decimalValue]
  | cons d a ih =>
    simp only [List.cons_append, decimalValue, ih, List.length_append, Nat.pow_add]
    ring

theorem digit_toNat {k : Nat} (h : k < 10) : (UInt8.ofNat (48 + k)).toNat = 48 + k := by
  simp; omega

theorem itoaLoop_spec : ∀ (fuel i : Nat), i ≤ fuel → 0 < i →
    Digits (itoaLoop fuel i).reverse ∧ decimalValue (itoaLoop fuel i).reverse = i ∧ (itoaLoop fuel i).reverse.head? ≠ some 48 := by
  intro fuel
  induction fuel with
  | zero => intro i h1 h2; omega
  | succ fuel ih =>
    intro i h1 h2
    have hne : i ≠ 0 := by omega
    simp only [itoaLoop, hne, if_false, List.reverse_cons]
    have hd := digit_toNat (k := i % 10) (by omega)
    by_cases hq : i / 10 = 0
    · have : itoaLoop fuel (i / 10) = [] := by
        rw [hq]; cases fuel <;> simp [itoaLoop]
      rw [this]
      simp only [List.reverse_nil, List.nil_append]
      refine ⟨⟨by simp, ?_⟩, ?_, ?_⟩
      · intro d hd'
        simp only [List.mem_singleton] at hd'
        rw [hd', hd]; omega
      · simp only [decimalValue, hd, List.length_nil]; omega
      · simp only [List.head?_cons, ne_eq, Option.some.injEq]
        intro e
        have := congrArg UInt8.toNat e
        rw [hd] at this
        simp at this; omega
    · obtain ⟨⟨g1, g2⟩, g3, g4⟩ := ih (i / 10) (by omega) (by omega)
      refine ⟨⟨by simp, ?_⟩, ?_, ?_⟩
      · intro d hd'
        simp only [List.mem_append, List.mem_singleton] at hd'
        rcases hd' with hd' | hd'
        · exact g2 d hd'
        · rw [hd', hd]; omega
      · rw [decimalValue_append, g3]
        simp only [decimalValue, hd, List.length_cons, List.length_nil]; omega
      · cases e : (itoaLoop fuel (i / 10)).reverse with
        | nil => exact absurd e g1
        | cons a t => rw [e] at g4; simpa using g4

theorem itoa_written (i : Int) : Written (itoa i) i := by
  unfold itoa
  by_cases h0 : i.natAbs = 0
  · have : i = 0 := by omega
    subst this
    exact ⟨[48], ⟨by simp, by simp⟩, by simp, Or.inl ⟨by decide, by simp, by decide⟩⟩
  · simp only [h0, if_false]
    obtain ⟨g1, g3, g4⟩ := itoaLoop_spec i.natAbs i.natAbs (Nat.le_refl _) (by omega)
    refine ⟨_, g1, fun e => absurd e g4, ?_⟩
    by_cases hn : i < 0
    · right; rw [if_pos hn]; exact ⟨hn, rfl, by rw [g3]; omega⟩
    · left; rw [if_neg hn]; exact ⟨by omega, rfl, by rw [g3]; omega⟩

theorem Written.numeral {s : Str} {i : Int} (h : Written s i) (h1 : -2147483648 ≤ i) (h2 : i ≤ 2147483647) : Numeral s i := by
  obtain ⟨ds, hd, _, ⟨_, rfl, hi⟩ | ⟨_, rfl, hi⟩⟩ := h
  · exact ⟨h1, h2, [], [], s, by simp, by simp, hd, Or.inl ⟨rfl, hi⟩⟩
  · exact ⟨h1, h2, [], [45], ds, by simp, by simp, hd, Or.inr (Or.inr ⟨rfl, hi⟩)⟩

/-- Digits without needless zeros are determined by their number. -/
theorem decimal_lt {ds : Str} (h : ∀ d ∈ ds, 48 ≤ d.toNat ∧ d.toNat ≤ 57) : decimalValue ds < 10 ^ ds.length := by
  induction ds with
  | nil => simp [decimalValue]
  | cons d ds ih =>
    have hd := h d (by simp)
    have := ih (fun e he => h e (by simp [he]))
    simp only [decimalValue, List.length_cons, Nat.pow_succ]
    have : (d.toNat - 48) * 10 ^ ds.length ≤ 9 * 10 ^ ds.length := Nat.mul_le_mul_right _ (by omega)
    omega

theorem decimal_same_length {a b : Str} (ha : ∀ d ∈ a, 48 ≤ d.toNat ∧ d.toNat ≤ 57) (hb : ∀ d ∈ b, 48 ≤ d.toNat ∧ d.toNat ≤ 57)
    (hl : a.length = b.length) (h : decimalValue a = decimalValue b) : a = b := by
  induction a generalizing b with
  | nil => cases b with
    | nil => rfl
    | cons _ _ => simp at hl
  | cons x a ih =>
    cases b with
    | nil => simp at hl
    | cons y b =>
      simp only [List.length_cons, Nat.add_right_cancel_iff] at hl
      simp only [decimalValue, hl] at h
      have hx := ha x (by simp)
      have hy := hb y (by simp)
      have h1 := decimal_lt (ds := a) (fun d hd => ha d (by simp [hd]))
      have h2 := decimal_lt (ds := b) (fun d hd => hb d (by simp [hd]))
      rw [hl] at h1
      have hq : x.toNat - 48 = y.toNat - 48 := by
        have e1 : ((x.toNat - 48) * 10 ^ b.length + decimalValue a) / 10 ^ b.length = x.toNat - 48 := by
          rw [Nat.mul_comm, Nat.mul_add_div (Nat.pow_pos (by decide)), Nat.div_eq_of_lt h1]; simp
        have e2 : ((y.toNat - 48) * 10 ^ b.length + decimalValue b) / 10 ^ b.length = y.toNat - 48 := by
          rw [Nat.mul_comm, Nat.mul_add_div (Nat.pow_pos (by decide)), Nat.div_eq_of_lt h2]; simp
        rw [h] at e1; omega
      have hxy : x = y := by rw [← UInt8.toNat_inj]; omega
      subst hxy
      rw [ih (fun d hd => ha d (by simp [hd])) (fun d hd => hb d (by simp [hd])) hl (by omega)]

theorem decimal_ge {ds : Str} (hd : Digits ds) (hz : ds.head? = some 48 → ds = [48]) (hne : ds ≠ [48]) : 10 ^ (ds.length - 1) ≤ decimalValue ds := by
  obtain ⟨d, t, rfl, hb⟩ := digits_head hd
  have : d ≠ 48 := fun e => hne (hz (by simp [e]))
  have : d.toNat ≠ 48 := fun e => this (by rw [← UInt8.toNat_inj]; simpa using e)
  simp only [decimalValue, List.length_cons, Nat.add_sub_cancel]
  have : 1 * 10 ^ t.length ≤ (d.toNat - 48) * 10 ^ t.length := Nat.mul_le_mul_right _ (by omega)
  omega

theorem decimal_unique {a b : Str} (ha : Digits a) (hb : Digits b) (za : a.head? = some 48 → a = [48]) (zb : b.head? = some 48 → b = [48])
    (h : decimalValue a = decimalValue b) : a = b := by
  have zero : ∀ {c : Str}, Digits c → (c.head? = some 48 → c = [48]) → decimalValue c = 0 → c = [48] := by
    intro c hc zc h0
    by_cases e : c = [48]
    · exact e
    · have := decimal_ge hc zc e
      rw [h0] at this
      have := Nat.pos_of_ne_zero (Nat.pow_eq_zero.not.2 (by simp) : (10 ^ (c.length - 1)) ≠ 0)
      omega
  by_cases ea : a = [48]
  · subst ea
    exact (zero hb zb (by rw [← h]; rfl)).symm
  by_cases eb : b = [48]
  · subst eb
    exact zero ha za (by rw [h]; rfl)
  have ga := decimal_ge ha za ea
  have gb := decimal_ge hb zb eb
  have la := decimal_lt ha.2
  have lb := decimal_lt hb.2
  have pa := List.length_pos_iff.2 ha.1
  have pb := List.length_pos_iff.2 hb.1
  refine decimal_same_length ha.2 hb.2 ?_ h
  have h1 : a.length - 1 < b.length := by
    by_contra hc
    have := Nat.pow_le_pow_right (n := 10) (by decide) (Nat.le_of_not_lt hc)
    omega
  have h2 : b.length - 1 < a.length := by
    by_contra hc
    have := Nat.pow_le_pow_right (n := 10) (by decide) (Nat.le_of_not_lt hc)
    omega
  omega

theorem Written.unique {s t : Str} {i : Int} (hs : Written s i) (ht : Written t i) : s = t := by
  obtain ⟨a, ha, za, h⟩ := hs
  obtain ⟨b, hb, zb, h'⟩ := ht
  rcases h with ⟨h1, rfl, h3⟩ | ⟨h1, rfl, h3⟩
  · rcases h' with ⟨k1, rfl, k3⟩ | ⟨k1, rfl, k3⟩
    · exact decimal_unique ha hb za zb (by omega)
    · omega
  · rcases h' with ⟨k1, rfl, k3⟩ | ⟨k1, rfl, k3⟩
    · omega
    · rw [decimal_unique ha hb za zb (by omega)]

end Verif.Annot
